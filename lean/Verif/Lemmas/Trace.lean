import Verif.Spec.Affected
import Verif.Lemmas.Phases
/-!
# Invariants that know the changes made while a statement runs
-/
namespace Denorm

/-- The row changes an item makes when carried out. -/
def Item.log (E : Engine) (db : Db) : Item → List (Change × Db)
  | .write _ t ops => opChanges E t ops db
  | .act .. => []

/-- Work `W` on `db` runs to the end, makes the changes `L` and ends in the last argument. -/
inductive Engine.Trace (E : Engine) : List Item → Db → List (Change × Db) → Db → Prop where
  | nil (db) : Engine.Trace E [] db [] db
  | step {it W new db db' L db2} : E.step it db = .ok (new, db') → Engine.Trace E (new ++ W) db' L db2 →
      Engine.Trace E (it :: W) db (it.log E db ++ L) db2

theorem Engine.trace_of_drain {E : Engine} : ∀ (n : Nat) (W : List Item) (db db' : Db), E.drain n W db = .ok db' →
    E.Trace W db (E.changes n W db) db'
  | _, [], db, db', hd => by
    simp only [Engine.drain, Except.ok.injEq] at hd
    simp only [Engine.changes]
    exact hd ▸ .nil _
  | 0, _ :: _, _, _, hd => by simp [Engine.drain] at hd
  | n + 1, it :: W, db, db', hd => by
    simp only [Engine.drain] at hd
    split at hd
    · rename_i new db1 hs
      have := Engine.Trace.step hs (Engine.trace_of_drain n _ _ _ hd)
      simp only [Engine.changes, hs]
      cases it <;> exact this
    · simp at hd

theorem Engine.Trace.append {E : Engine} {W : List Item} {db db2 : Db} {L : List (Change × Db)} (h : E.Trace W db L db2) :
    ∀ {A B : List Item}, W = A ++ B → ∃ L1 L2 db1, E.Trace A db L1 db1 ∧ E.Trace B db1 L2 db2 ∧ L = L1 ++ L2 := by
  induction h with
  | nil db =>
    intro A B hW
    obtain ⟨rfl, rfl⟩ := List.append_eq_nil_iff.1 hW.symm
    exact ⟨[], [], db, .nil _, .nil _, rfl⟩
  | @step it W new db db' L db2 hs hr ih =>
    intro A B hW
    cases A with
    | nil =>
      simp only [List.nil_append] at hW
      exact ⟨[], _, db, .nil _, hW ▸ .step hs hr, rfl⟩
    | cons x A =>
      simp only [List.cons_append, List.cons.injEq] at hW
      obtain ⟨rfl, rfl⟩ := hW
      obtain ⟨L1, L2, db1, h1, h2, rfl⟩ := ih (A := new ++ A) (B := B) (by simp)
      exact ⟨_, L2, db1, .step hs h1, h2, by simp⟩

/-- Like `StepInv`; a row write may use that its change satisfies `Q`. -/
structure StepInvQ (E : Engine) (Q : Change → Db → Prop) (I : List Item → Db → Prop) : Prop where
  perm : ∀ {W W' db}, W.Perm W' → I W db → I W' db
  writeNil : ∀ {fr t W db}, I (.write fr t [] :: W) db → I W db
  writeOp : ∀ {fr t op ops W db}, (∀ ch ∈ (applyOp E t op db).2, Q ch (applyOp E t op db).1) → I (.write fr t (op :: ops) :: W) db →
    I (.write fr t ops :: ((applyOp E t op db).2.flatMap (E.fired fr) ++ W)) (applyOp E t op db).1
  markValues : ∀ {fr ch ct s c q W db}, I (.act fr ch (.markValues ct s c q) :: W) db →
    I W (db.addMarks [⟨ct, ch.side s c⟩])
  markSelect : ∀ {fr ch ct sel t k s c q W db}, I (.act fr ch (.markSelect ct sel t k s c q) :: W) db →
    I W (db.addMarks (selectMarks ct sel (db.rows t) k (ch.side s c)))
  update : ∀ {fr ch u W db}, ¬ (E.backend = .mysql ∧ u.table ∈ fr.tables) → I (.act fr ch (.update u) :: W) db →
    I (writes E.backend fr u.table (u.ops ch db) ++ W) db

theorem applyOps_perm {E : Engine} {t : TableName} {op : RowOp} {ops : List RowOp} {db : Db} {fr : Frame} {W : List Item} :
    ((applyOps E t ops (applyOp E t op db).1).2.flatMap (E.fired fr) ++ ((applyOp E t op db).2.flatMap (E.fired fr) ++ W)).Perm
      ((applyOps E t (op :: ops) db).2.flatMap (E.fired fr) ++ W) := by
  simp only [applyOps, List.flatMap_append, List.append_assoc]
  rw [← List.append_assoc, ← List.append_assoc]
  exact List.Perm.append_right _ List.perm_append_comm

section
variable {E : Engine} {Q : Change → Db → Prop}

theorem StepInvQ.write {I : List Item → Db → Prop} (h : StepInvQ E Q I) (fr : Frame) (t : TableName) :
    ∀ (ops : List RowOp) (W : List Item) (db : Db), (∀ p ∈ opChanges E t ops db, Q p.1 p.2) → I (.write fr t ops :: W) db →
      I ((applyOps E t ops db).2.flatMap (E.fired fr) ++ W) (applyOps E t ops db).1
  | [], W, db, _, hI => by simpa [applyOps] using h.writeNil hI
  | op :: ops, W, db, hQ, hI => by
    simp only [opChanges, List.mem_append, List.mem_map] at hQ
    have h1 := h.writeOp (fun ch hch => hQ (ch, (applyOp E t op db).1) (.inl ⟨ch, hch, rfl⟩)) hI
    have h2 := h.write fr t ops _ _ (fun p hp => hQ p (.inr hp)) h1
    exact h.perm applyOps_perm h2

theorem StepInvQ.step {I : List Item → Db → Prop} (h : StepInvQ E Q I) {it : Item} {W new : List Item}
    {db db' : Db} (hs : E.step it db = .ok (new, db')) (hQ : ∀ p ∈ it.log E db, Q p.1 p.2) (hI : I (it :: W) db) : I (new ++ W) db' := by
  cases it with
  | write fr t ops =>
    simp only [Engine.step, Except.ok.injEq, Prod.mk.injEq] at hs
    obtain ⟨rfl, rfl⟩ := hs
    exact h.write fr t ops W db hQ hI
  | act fr ch a =>
    cases a with
    | markValues ct s c q =>
      simp only [Engine.step, Except.ok.injEq, Prod.mk.injEq] at hs
      obtain ⟨rfl, rfl⟩ := hs
      exact h.markValues hI
    | markSelect ct sel t k s c q =>
      simp only [Engine.step, Except.ok.injEq, Prod.mk.injEq] at hs
      obtain ⟨rfl, rfl⟩ := hs
      exact h.markSelect hI
    | update u =>
      simp only [Engine.step] at hs
      split at hs
      · simp at hs
      · rename_i hb
        simp only [Except.ok.injEq, Prod.mk.injEq] at hs
        obtain ⟨rfl, rfl⟩ := hs
        exact h.update hb hI

theorem StepInvQ.trace {I : List Item → Db → Prop} (h : StepInvQ E Q I) {W : List Item} {db db' : Db} {L : List (Change × Db)}
    (ht : E.Trace W db L db') (hQ : ∀ p ∈ L, Q p.1 p.2) (hI : I W db) : I [] db' := by
  induction ht with
  | nil => exact hI
  | step hs _ ih =>
    exact ih (fun p hp => hQ p (List.mem_append_right _ hp)) (h.step hs (fun p hp => hQ p (List.mem_append_left _ hp)) hI)

/-- The item is an action for a change of table `t`. -/
def Item.actOn (t : TableName) : Item → Prop
  | .act _ ch _ => ch.table = t
  | .write .. => False

theorem actOn_fired {t : TableName} {op : RowOp} {db : Db} {fr : Frame} {it : Item}
    (h : it ∈ (applyOp E t op db).2.flatMap (E.fired fr)) : it.actOn t := by
  obtain ⟨ch, hch, h⟩ := List.mem_flatMap.1 h
  obtain ⟨tr, _, _, a, _, rfl⟩ := mem_fired.1 h
  obtain ⟨x, _, hx, _⟩ := applyOp_effect E t op db
  rw [hx] at hch
  cases x with
  | none => simp [effectChange] at hch
  | some p => simp only [effectChange, List.mem_singleton] at hch; subst hch; rfl

/-- Like `PhaseInv`; a row write may use that its change satisfies `Q`. -/
structure PhaseInvQ (E : Engine) (Q : Change → Db → Prop) (t : TableName) (I : List RowOp → List Item → Db → Prop) : Prop where
  nested : ∀ ops, StepInvQ E Q (I ops)
  top : ∀ {op ops W db}, (∀ it ∈ W, it.actOn t) → (∀ ch ∈ (applyOp E t op db).2, Q ch (applyOp E t op db).1) → I (op :: ops) W db →
    I ops ((applyOp E t op db).2.flatMap (E.fired .top) ++ W) (applyOp E t op db).1

theorem actOn_append {t : TableName} {op : RowOp} {db : Db} {fr : Frame} {W : List Item} (h : ∀ it ∈ W, it.actOn t) :
    ∀ it ∈ (applyOp E t op db).2.flatMap (E.fired fr) ++ W, it.actOn t := by
  intro it hit
  rcases List.mem_append.1 hit with hit | hit
  · exact actOn_fired hit
  · exact h it hit

theorem PhaseInvQ.writeAll {t : TableName} {I : List RowOp → List Item → Db → Prop} (h : PhaseInvQ E Q t I) :
    ∀ {ops rest : List RowOp} {W : List Item} {db : Db}, (∀ it ∈ W, it.actOn t) → (∀ p ∈ opChanges E t ops db, Q p.1 p.2) →
      I (ops ++ rest) W db → I rest ((applyOps E t ops db).2.flatMap (E.fired .top) ++ W) (applyOps E t ops db).1
  | [], rest, W, db, _, _, hI => by simpa [applyOps] using hI
  | op :: ops, rest, W, db, hW, hQ, hI => by
    simp only [opChanges, List.mem_append, List.mem_map] at hQ
    have h1 := h.top hW (fun ch hch => hQ (ch, (applyOp E t op db).1) (.inl ⟨ch, hch, rfl⟩)) hI
    have h2 := h.writeAll (ops := ops) (rest := rest) (actOn_append hW) (fun p hp => hQ p (.inr hp)) h1
    exact (h.nested rest).perm applyOps_perm h2

theorem PhaseInvQ.oneByOne {t : TableName} {I : List RowOp → List Item → Db → Prop} (h : PhaseInvQ E Q t I) :
    ∀ {ops : List RowOp} {db db' : Db} {L : List (Change × Db)}, I ops [] db →
      E.Trace (ops.map fun op => .write .top t [op]) db L db' → (∀ p ∈ L, Q p.1 p.2) → I [] [] db'
  | [], db, db', L, hI, hr, _ => by
    generalize hW : ([] : List RowOp).map _ = W at hr
    simp only [List.map_nil] at hW
    cases hr with
    | nil => exact hI
    | step hs hr => exact absurd hW (by simp)
  | op :: ops, db, db', L, hI, hr, hQ => by
    generalize hW : (op :: ops).map _ = W at hr
    simp only [List.map_cons] at hW
    cases hr with
    | nil => simp at hW
    | @step it W new _ db1 L _ hs hr =>
      simp only [List.cons.injEq] at hW
      obtain ⟨rfl, rfl⟩ := hW
      simp only [Engine.step, Except.ok.injEq, Prod.mk.injEq] at hs
      obtain ⟨rfl, rfl⟩ := hs
      have h1 := h.writeAll (ops := [op]) (rest := ops) (W := []) (by simp) (fun p hp => hQ p (List.mem_append_left _ hp)) hI
      simp only [List.append_nil] at h1
      obtain ⟨L1, L2, db1, h2, h3, rfl⟩ := hr.append rfl
      exact h.oneByOne ((h.nested ops).trace h2 (fun p hp => hQ p (by simp [hp])) h1) h3 (fun p hp => hQ p (by simp [hp]))

theorem Engine.start_pg {s : Stmt} {db : Db} (hb : E.backend = .postgresql) : E.start s db = [.write .top s.table (s.ops db)] := by
  rw [Engine.start, hb]; rfl

theorem Engine.start_rows {s : Stmt} {db : Db} (hb : E.backend ≠ .postgresql) :
    E.start s db = (s.ops db).map fun op => .write .top s.table [op] := by
  cases hb' : E.backend <;> simp_all [Engine.start, writes]

theorem PhaseInvQ.exec {s : Stmt} {I : List RowOp → List Item → Db → Prop} (h : PhaseInvQ E Q s.table I) {fuel : Nat}
    {db db' : Db} (hI : I (s.ops db) [] db) (he : E.exec fuel s db = .ok db') (hQ : ∀ p ∈ E.changesOf fuel s db, Q p.1 p.2) :
    I [] [] db' := by
  have ht := Engine.trace_of_drain _ _ _ _ he
  change E.Trace _ _ (E.changesOf fuel s db) _ at ht
  by_cases hb : E.backend = .postgresql
  · rw [Engine.start_pg hb] at ht
    generalize E.changesOf fuel s db = L at ht hQ
    generalize hW : [Item.write Frame.top s.table (s.ops db)] = W at ht
    cases ht with
    | nil => simp at hW
    | @step it W new _ db1 L _ hs hr =>
      simp only [List.cons.injEq] at hW
      obtain ⟨rfl, rfl⟩ := hW
      simp only [Engine.step, Except.ok.injEq, Prod.mk.injEq] at hs
      obtain ⟨rfl, rfl⟩ := hs
      have h1 := h.writeAll (ops := s.ops db) (rest := []) (W := []) (by simp) (fun p hp => hQ p (List.mem_append_left _ hp))
        (by simpa using hI)
      exact (h.nested []).trace hr (fun p hp => hQ p (List.mem_append_right _ hp)) h1
  · rw [Engine.start_rows hb] at ht
    exact h.oneByOne hI ht hQ

/-! ## Invariants that start with a change -/

/-- How the invariant `I1` starts at a change with property `R` while `I0` holds. -/
structure Begins (E : Engine) (R : Change → Db → Prop) (t : TableName) (I0 I1 : List RowOp → List Item → Db → Prop) : Prop where
  nested : ∀ {rest fr t' op ops W db ch}, I0 rest (.write fr t' (op :: ops) :: W) db → ch ∈ (applyOp E t' op db).2 →
    R ch (applyOp E t' op db).1 →
    I1 rest (.write fr t' ops :: ((applyOp E t' op db).2.flatMap (E.fired fr) ++ W)) (applyOp E t' op db).1
  top : ∀ {op ops W db ch}, (∀ it ∈ W, it.actOn t) → I0 (op :: ops) W db → ch ∈ (applyOp E t op db).2 → R ch (applyOp E t op db).1 →
    I1 ops ((applyOp E t op db).2.flatMap (E.fired .top) ++ W) (applyOp E t op db).1

variable {R : Change → Db → Prop} {t : TableName} {I0 I1 : List RowOp → List Item → Db → Prop}

theorem Begins.write (h0 : PhaseInvQ E (fun _ _ => True) t I0) (h1 : PhaseInvQ E (fun _ _ => True) t I1) (hb : Begins E R t I0 I1)
    {rest : List RowOp} (fr : Frame) (t' : TableName) : ∀ (ops : List RowOp) (W : List Item) (db : Db),
      I0 rest (.write fr t' ops :: W) db → ∀ p ∈ opChanges E t' ops db, R p.1 p.2 →
      I1 rest ((applyOps E t' ops db).2.flatMap (E.fired fr) ++ W) (applyOps E t' ops db).1
  | [], _, _, _, p, hp, _ => by simp [opChanges] at hp
  | op :: ops, W, db, hI, p, hp, hR => by
    refine (h1.nested rest).perm applyOps_perm ?_
    simp only [opChanges, List.mem_append, List.mem_map] at hp
    rcases hp with ⟨ch, hch, rfl⟩ | hp
    · exact (h1.nested rest).write fr t' ops _ _ (fun _ _ => trivial) (hb.nested hI hch hR)
    · exact Begins.write h0 h1 hb fr t' ops _ _ ((h0.nested rest).writeOp (fun _ _ => trivial) hI) p hp hR

theorem Begins.writeTop (h0 : PhaseInvQ E (fun _ _ => True) t I0) (h1 : PhaseInvQ E (fun _ _ => True) t I1) (hb : Begins E R t I0 I1)
    {rest : List RowOp} : ∀ (ops : List RowOp) (W : List Item) (db : Db), (∀ it ∈ W, it.actOn t) →
      I0 (ops ++ rest) W db → ∀ p ∈ opChanges E t ops db, R p.1 p.2 →
      I1 rest ((applyOps E t ops db).2.flatMap (E.fired .top) ++ W) (applyOps E t ops db).1
  | [], _, _, _, _, p, hp, _ => by simp [opChanges] at hp
  | op :: ops, W, db, hW, hI, p, hp, hR => by
    refine (h1.nested rest).perm applyOps_perm ?_
    simp only [opChanges, List.mem_append, List.mem_map] at hp
    rcases hp with ⟨ch, hch, rfl⟩ | hp
    · exact h1.writeAll (actOn_append hW) (fun _ _ => trivial) (hb.top hW hI hch hR)
    · exact Begins.writeTop h0 h1 hb ops _ _ (actOn_append hW) (h0.top hW (fun _ _ => trivial) hI) p hp hR

theorem Begins.trace (h0 : PhaseInvQ E (fun _ _ => True) t I0) (h1 : PhaseInvQ E (fun _ _ => True) t I1) (hb : Begins E R t I0 I1)
    {rest : List RowOp} {W : List Item} {db db' : Db} {L : List (Change × Db)} (ht : E.Trace W db L db') (hI : I0 rest W db)
    {p : Change × Db} (hp : p ∈ L) (hR : R p.1 p.2) : I1 rest [] db' := by
  induction ht with
  | nil => simp at hp
  | @step it W new db db1 L db2 hs ht ih =>
    rcases List.mem_append.1 hp with hp | hp
    · cases it with
      | act _ _ _ => simp [Item.log] at hp
      | write fr t' ops =>
        simp only [Engine.step, Except.ok.injEq, Prod.mk.injEq] at hs
        obtain ⟨rfl, rfl⟩ := hs
        exact (h1.nested rest).trace ht (fun _ _ => trivial) (hb.write h0 h1 fr t' ops W db hI p hp hR)
    · exact ih ((h0.nested rest).step hs (fun _ _ => trivial) hI) hp

theorem Begins.oneByOne (h0 : PhaseInvQ E (fun _ _ => True) t I0) (h1 : PhaseInvQ E (fun _ _ => True) t I1) (hb : Begins E R t I0 I1) :
    ∀ {ops : List RowOp} {db db' : Db} {L : List (Change × Db)}, I0 ops [] db →
      E.Trace (ops.map fun op => .write .top t [op]) db L db' → ∀ p ∈ L, R p.1 p.2 → I1 [] [] db'
  | [], db, db', L, hI, hr, p, hp, _ => by
    generalize hW : ([] : List RowOp).map _ = W at hr
    simp only [List.map_nil] at hW
    cases hr with
    | nil => simp at hp
    | step hs hr => exact absurd hW (by simp)
  | op :: ops, db, db', L, hI, hr, p, hp, hR => by
    generalize hW : (op :: ops).map _ = W at hr
    simp only [List.map_cons] at hW
    cases hr with
    | nil => simp at hW
    | @step it W new _ db1 L _ hs hr =>
      simp only [List.cons.injEq] at hW
      obtain ⟨rfl, rfl⟩ := hW
      simp only [Engine.step, Except.ok.injEq, Prod.mk.injEq] at hs
      obtain ⟨rfl, rfl⟩ := hs
      obtain ⟨L1, L2, db1, h2, h3, rfl⟩ := hr.append rfl
      have next : I0 ops ((applyOps E t [op] db).2.flatMap (E.fired .top)) (applyOps E t [op] db).1 := by
        have := h0.writeAll (ops := [op]) (rest := ops) (W := []) (by simp) (fun _ _ => trivial) hI
        simpa using this
      simp only [Item.log, List.mem_append] at hp
      rcases hp with hp | hp | hp
      · have := hb.writeTop h0 h1 (rest := ops) [op] [] db (by simp) hI p hp hR
        simp only [List.append_nil] at this
        exact h1.oneByOne ((h1.nested ops).trace h2 (fun _ _ => trivial) this) h3 (fun _ _ => trivial)
      · exact h1.oneByOne (hb.trace h0 h1 h2 next hp hR) h3 (fun _ _ => trivial)
      · exact hb.oneByOne h0 h1 ((h0.nested ops).trace h2 (fun _ _ => trivial) next) h3 p hp hR

/-- After a statement, the invariant that started at one of its changes holds. -/
theorem Begins.exec {s : Stmt} (h0 : PhaseInvQ E (fun _ _ => True) s.table I0) (h1 : PhaseInvQ E (fun _ _ => True) s.table I1)
    (hb : Begins E R s.table I0 I1) {fuel : Nat} {db db' : Db} (hI : I0 (s.ops db) [] db) (he : E.exec fuel s db = .ok db')
    {p : Change × Db} (hp : p ∈ E.changesOf fuel s db) (hR : R p.1 p.2) : I1 [] [] db' := by
  have ht := Engine.trace_of_drain _ _ _ _ he
  change E.Trace _ _ (E.changesOf fuel s db) _ at ht
  by_cases hpg : E.backend = .postgresql
  · rw [Engine.start_pg hpg] at ht
    generalize E.changesOf fuel s db = L at ht hp
    generalize hW : [Item.write Frame.top s.table (s.ops db)] = W at ht
    cases ht with
    | nil => simp at hW
    | @step it W new _ db1 L _ hs hr =>
      simp only [List.cons.injEq] at hW
      obtain ⟨rfl, rfl⟩ := hW
      simp only [Engine.step, Except.ok.injEq, Prod.mk.injEq] at hs
      obtain ⟨rfl, rfl⟩ := hs
      simp only [Item.log, List.mem_append] at hp
      rcases hp with hp | hp
      · have := hb.writeTop h0 h1 (rest := []) (s.ops db) [] db (by simp) (by simpa using hI) p hp hR
        exact (h1.nested []).trace hr (fun _ _ => trivial) this
      · refine hb.trace h0 h1 hr ?_ hp hR
        exact h0.writeAll (ops := s.ops db) (rest := []) (W := []) (by simp) (fun _ _ => trivial) (by simpa using hI)
  · rw [Engine.start_rows hpg] at ht
    exact hb.oneByOne h0 h1 hI ht p hp hR
end

end Denorm
