import Verif.Lemmas.TrackingInv
/-!
# Invariants that know which rows the statement itself has still to write

The row writes of a statement and the work of its triggers do not mix: PostgreSQL writes all rows first, the other two finish the
triggers of one row before they write the next. So when the statement writes a row, no trigger is in the middle of an UPDATE.
-/
namespace Denorm

def Item.isAct : Item → Prop
  | .act .. => True
  | .write .. => False

/-- `I ops W db`: `ops` are the row writes the statement has still to do, `W` is the work left for triggers. -/
structure PhaseInv (E : Engine) (t : TableName) (I : List RowOp → List Item → Db → Prop) : Prop where
  nested : ∀ ops, StepInv E (I ops)
  top : ∀ {op ops W db}, (∀ it ∈ W, it.isAct) → I (op :: ops) W db →
    I ops ((applyOp E t op db).2.flatMap (E.fired .top) ++ W) (applyOp E t op db).1

theorem isAct_fired {E : Engine} {fr : Frame} {chs : List Change} {it : Item} (h : it ∈ chs.flatMap (E.fired fr)) : it.isAct := by
  obtain ⟨ch, _, h⟩ := List.mem_flatMap.1 h
  obtain ⟨tr, _, _, a, _, rfl⟩ := mem_fired.1 h
  trivial

theorem PhaseInv.writeAll {E : Engine} {t : TableName} {I : List RowOp → List Item → Db → Prop} (h : PhaseInv E t I) :
    ∀ {ops rest : List RowOp} {W : List Item} {db : Db}, (∀ it ∈ W, it.isAct) → I (ops ++ rest) W db →
      I rest ((applyOps E t ops db).2.flatMap (E.fired .top) ++ W) (applyOps E t ops db).1
  | [], rest, W, db, _, hI => by simpa [applyOps] using hI
  | op :: ops, rest, W, db, hW, hI => by
    have h1 := h.top hW hI
    have h2 := h.writeAll (ops := ops) (rest := rest) (by
      intro it hit
      rcases List.mem_append.1 hit with hit | hit
      · exact isAct_fired hit
      · exact hW it hit) h1
    refine (h.nested rest).perm ?_ h2
    simp only [applyOps, List.flatMap_append, List.append_assoc]
    rw [← List.append_assoc, ← List.append_assoc]
    exact List.Perm.append_right _ List.perm_append_comm

theorem Engine.reach_append {E : Engine} {W W2 : List Item} {db db2 : Db} (h : E.Reach W db W2 db2) :
    ∀ {A B : List Item}, W = A ++ B → (∃ A', E.Reach A db A' db2 ∧ W2 = A' ++ B) ∨
      ∃ db1, E.Reach A db [] db1 ∧ E.Reach B db1 W2 db2 := by
  induction h with
  | refl W db => intro A B hW; exact .inl ⟨A, .refl _ _, hW⟩
  | @step it W new db db' W2 db2 hs hr ih =>
    intro A B hW
    cases A with
    | nil =>
      simp only [List.nil_append] at hW
      exact .inr ⟨db, .refl _ _, hW ▸ .step hs hr⟩
    | cons x A =>
      simp only [List.cons_append, List.cons.injEq] at hW
      obtain ⟨rfl, rfl⟩ := hW
      rcases ih (A := new ++ A) (B := B) (by simp) with ⟨A', h1, h2⟩ | ⟨db1, h1, h2⟩
      · exact .inl ⟨A', .step hs h1, h2⟩
      · exact .inr ⟨db1, .step hs h1, h2⟩

theorem PhaseInv.oneByOne {E : Engine} {t : TableName} {I : List RowOp → List Item → Db → Prop} (h : PhaseInv E t I) :
    ∀ {ops : List RowOp} {W' : List Item} {db db' : Db}, I ops [] db → E.Reach (ops.map fun op => .write .top t [op]) db W' db' →
      ∃ rest V, I rest V db' ∧ (W' = [] → rest = [] ∧ V = [])
  | [], W', db, db', hI, hr => by
    generalize hW : ([] : List RowOp).map _ = W at hr
    simp only [List.map_nil] at hW
    cases hr with
    | refl => exact ⟨[], [], hI, fun _ => ⟨rfl, rfl⟩⟩
    | step hs hr => exact absurd hW (by simp)
  | op :: ops, W', db, db', hI, hr => by
    generalize hW : (op :: ops).map _ = W at hr
    simp only [List.map_cons] at hW
    cases hr with
    | refl => exact ⟨_, [], hI, fun h => absurd (hW.trans h) (by simp)⟩
    | @step it W new _ db1 _ _ hs hr =>
      simp only [List.cons.injEq] at hW
      obtain ⟨rfl, rfl⟩ := hW
      simp only [Engine.step, Except.ok.injEq, Prod.mk.injEq] at hs
      obtain ⟨rfl, rfl⟩ := hs
      have h1 := h.writeAll (ops := [op]) (rest := ops) (W := []) (by simp) hI
      simp only [List.append_nil] at h1
      rcases Engine.reach_append hr rfl with ⟨A', h2, h3⟩ | ⟨db1, h2, h3⟩
      · refine ⟨ops, A', (h.nested ops).reach h2 h1, fun he => ?_⟩
        rw [he] at h3
        have h4 := List.append_eq_nil_iff.1 h3.symm
        exact ⟨List.map_eq_nil_iff.1 h4.2, h4.1⟩
      · exact h.oneByOne ((h.nested ops).reach h2 h1) h3

/-- Every state a statement passes through satisfies the invariant, for the rows still to be written. -/
theorem PhaseInv.reach {E : Engine} {s : Stmt} {I : List RowOp → List Item → Db → Prop} (h : PhaseInv E s.table I) {W' : List Item}
    {db db' : Db} (hI : I (s.ops db) [] db) (hr : E.Reach (E.start s db) db W' db') :
    ∃ rest V, I rest V db' ∧ (W' = [] → rest = [] ∧ V = []) := by
  by_cases hb : E.backend = .postgresql
  · rw [Engine.start, hb] at hr
    simp only [writes] at hr
    generalize hW : [Item.write Frame.top s.table (s.ops db)] = W at hr
    cases hr with
    | refl => exact ⟨_, [], hI, fun h => absurd (hW.trans h) (by simp)⟩
    | @step it W new _ db1 _ _ hs hr =>
      simp only [List.cons.injEq] at hW
      obtain ⟨rfl, rfl⟩ := hW
      simp only [Engine.step, Except.ok.injEq, Prod.mk.injEq] at hs
      obtain ⟨rfl, rfl⟩ := hs
      have h1 := h.writeAll (ops := s.ops db) (rest := []) (W := []) (by simp) (by simpa using hI)
      exact ⟨[], _, (h.nested []).reach hr h1, fun he => ⟨rfl, he⟩⟩
  · have : E.start s db = (s.ops db).map fun op => .write .top s.table [op] := by
      cases hb' : E.backend <;> simp_all [Engine.start, writes]
    rw [this] at hr
    exact h.oneByOne hI hr

theorem PhaseInv.exec {E : Engine} {s : Stmt} {I : List RowOp → List Item → Db → Prop} (h : PhaseInv E s.table I) {fuel : Nat}
    {db db' : Db} (hI : I (s.ops db) [] db) (he : E.exec fuel s db = .ok db') : I [] [] db' := by
  obtain ⟨rest, V, h1, h2⟩ := h.reach hI (Engine.reach_of_drain _ _ _ _ he)
  obtain ⟨rfl, rfl⟩ := h2 rfl
  exact h1

end Denorm
