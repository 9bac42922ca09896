import Verif.Code.M2M
import Verif.Lemmas.SaveStored
import Verif.Lemmas.KeyInv
/-!
# Statements on a table that triggers do not write
-/
namespace Denorm
variable {E : Engine} {db db' : Db} {t : TableName}

/-- No trigger writes the table. -/
def Untouched (E : Engine) (t : TableName) : Prop := ∀ tr ∈ E.triggers, ∀ u, Action.update u ∈ tr.actions → u.table ≠ t

/-- The effect of insertions and deletions on a table. -/
def rowsAfter : List RowOp → List Row → List Row
  | [], rows => rows
  | .ins r :: ops, rows => rowsAfter ops (rows ++ [r])
  | .del w :: ops, rows => rowsAfter ops (rows.eraseP w)
  | .upd _ _ :: ops, rows => rowsAfter ops rows

def RowOp.plain : RowOp → Bool
  | .upd .. => false
  | _ => true

theorem rowsAfter_append : ∀ (a b : List RowOp) (rows : List Row), rowsAfter (a ++ b) rows = rowsAfter b (rowsAfter a rows)
  | [], _, _ => rfl
  | .ins _ :: a, b, rows => rowsAfter_append a b _
  | .del _ :: a, b, rows => rowsAfter_append a b _
  | .upd .. :: a, b, rows => rowsAfter_append a b _

/-- The pending writes of a table, in order. -/
def pendingOps (t : TableName) : List Item → List RowOp
  | [] => []
  | .write _ t' ops :: W => (if t' = t then ops else []) ++ pendingOps t W
  | .act .. :: W => pendingOps t W

theorem pendingOps_append (t : TableName) : ∀ (W W' : List Item), pendingOps t (W ++ W') = pendingOps t W ++ pendingOps t W'
  | [], _ => rfl
  | .write _ t' ops :: W, W' => by simp [pendingOps, pendingOps_append t W W', List.append_assoc]
  | .act .. :: W, W' => by simp [pendingOps, pendingOps_append t W W']

theorem applyOps_rows_other {t' : TableName} (h : t ≠ t') : ∀ (ops : List RowOp) (db : Db), (applyOps E t' ops db).1.rows t = db.rows t
  | [], _ => rfl
  | op :: ops, db => by
    simp only [applyOps]
    rw [applyOps_rows_other h ops, applyOp_rows_other E op db h]

theorem applyOps_rows_plain : ∀ (ops : List RowOp) (db : Db), (∀ op ∈ ops, op.plain = true) →
    (applyOps E t ops db).1.rows t = rowsAfter ops (db.rows t)
  | [], _, _ => rfl
  | .ins r :: ops, db, h => by
    simp only [applyOps, applyOp, rowsAfter]
    rw [applyOps_rows_plain ops _ fun op ho => h op (List.mem_cons_of_mem _ ho), Db.setRows_same]
  | .del w :: ops, db, h => by
    simp only [applyOps, rowsAfter]
    rw [applyOps_rows_plain ops _ fun op ho => h op (List.mem_cons_of_mem _ ho)]
    simp only [applyOp]
    cases hf : (db.rows t).find? w with
    | none => simp only; rw [List.eraseP_of_forall_not (List.find?_eq_none.1 hf)]
    | some old => simp only [Db.setRows_same]
  | .upd .. :: ops, db, h => by
    have := h _ (List.mem_cons_self ..)
    simp [RowOp.plain] at this

/-- Items that come from triggers do not write the table. -/
def Item.spares (t : TableName) : Item → Prop
  | .write _ t' ops => t' = t → ∀ op ∈ ops, op.plain = true
  | .act _ _ (.update u) => u.table ≠ t
  | .act .. => True

theorem spares_fired (hU : Untouched E t) {fr : Frame} {ch : Change} : ∀ it ∈ E.fired fr ch, it.spares t := by
  intro it hit
  obtain ⟨tr, htr, _, a, ha, rfl⟩ := mem_fired.1 hit
  cases a with
  | update u => exact hU tr htr u ha
  | markValues => trivial
  | markSelect => trivial

theorem pendingOps_fired {fr : Frame} : ∀ (chs : List Change), pendingOps t (chs.flatMap (E.fired fr)) = []
  | [] => rfl
  | ch :: chs => by
    rw [List.flatMap_cons, pendingOps_append, pendingOps_fired chs, List.append_nil]
    have : ∀ W : List Item, (∀ it ∈ W, ∃ fr ch a, it = .act fr ch a) → pendingOps t W = [] := by
      intro W
      induction W with
      | nil => intro _; rfl
      | cons it W ih =>
        intro h
        obtain ⟨fr, ch, a, rfl⟩ := h _ (List.mem_cons_self ..)
        simp only [pendingOps]
        exact ih fun it hit => h it (List.mem_cons_of_mem _ hit)
    refine this _ fun it hit => ?_
    obtain ⟨tr, _, _, a, _, rfl⟩ := mem_fired.1 hit
    exact ⟨_, _, _, rfl⟩

theorem drain_rows (hU : Untouched E t) : ∀ (n : Nat) (W : List Item) (db db' : Db), E.drain n W db = .ok db' →
    (∀ it ∈ W, it.spares t) → db'.rows t = rowsAfter (pendingOps t W) (db.rows t)
  | _, [], db, db', h, _ => by
    simp only [Engine.drain, Except.ok.injEq] at h
    rw [h]; rfl
  | 0, _ :: _, _, _, h, _ => by simp [Engine.drain] at h
  | n + 1, it :: W, db, db', h, hW => by
    simp only [Engine.drain] at h
    have hit := hW it (List.mem_cons_self ..)
    have hW' : ∀ it ∈ W, it.spares t := fun it hi => hW it (List.mem_cons_of_mem _ hi)
    cases it with
    | write fr t' ops =>
      simp only [Engine.step] at h
      rw [drain_rows hU n _ _ _ h, pendingOps_append, pendingOps_fired, List.nil_append]
      · simp only [pendingOps]
        by_cases ht : t' = t
        · subst ht
          simp only [if_true]
          rw [rowsAfter_append, applyOps_rows_plain _ _ (hit rfl)]
        · simp only [if_neg ht, List.nil_append]
          rw [applyOps_rows_other (Ne.symm ht)]
      · intro it hi
        rcases List.mem_append.1 hi with hi | hi
        · obtain ⟨ch, _, hi⟩ := List.mem_flatMap.1 hi
          exact spares_fired hU it hi
        · exact hW' it hi
    | act fr ch a =>
      cases a with
      | markValues ct s c q =>
        simp only [Engine.step, List.nil_append] at h
        rw [drain_rows hU n _ _ _ h hW']; rfl
      | markSelect ct sel t' k s c q =>
        simp only [Engine.step, List.nil_append] at h
        rw [drain_rows hU n _ _ _ h hW']; rfl
      | update u =>
        simp only [Engine.step] at h
        have hu : u.table ≠ t := hit
        by_cases hb : E.backend = .mysql ∧ u.table ∈ fr.tables
        · rw [if_pos hb] at h; simp at h
        · rw [if_neg hb] at h
          simp only at h
          rw [drain_rows hU n _ _ _ h, pendingOps_append]
          · have : ∀ ops, pendingOps t (writes E.backend fr u.table ops) = [] := by
              intro ops
              have h1 : ∀ l : List RowOp, pendingOps t (l.map fun op => Item.write fr u.table [op]) = [] := by
                intro l
                induction l with
                | nil => rfl
                | cons a l ih => simp [pendingOps, hu, ih]
              cases E.backend <;> simp [writes, h1, pendingOps, hu]
            rw [this]; rfl
          · intro it hi
            rcases List.mem_append.1 hi with hi | hi
            · obtain ⟨l, rfl, _⟩ := mem_writes hi
              exact fun e => absurd e hu
            · exact hW' it hi

theorem pendingOps_writes {b : Backend} {fr : Frame} (ops : List RowOp) : pendingOps t (writes b fr t ops) = ops := by
  have h1 : ∀ l : List RowOp, pendingOps t (l.map fun op => Item.write fr t [op]) = l := by
    intro l
    induction l with
    | nil => rfl
    | cons a l ih => simp [pendingOps, ih]
  cases b <;> simp [writes, h1, pendingOps]

theorem rowsAfter_ins : ∀ (rs rows : List Row), rowsAfter (rs.map .ins) rows = rows ++ rs
  | [], rows => by simp [rowsAfter]
  | r :: rs, rows => by simp [rowsAfter, rowsAfter_ins rs]

/-- An INSERT adds its rows. -/
theorem exec_insert_rows (hU : Untouched E t) {fuel : Nat} {rs : List Row} (h : E.exec fuel (.insert t rs) db = .ok db') :
    db'.rows t = db.rows t ++ rs := by
  rw [Engine.exec, Engine.start] at h
  rw [drain_rows hU _ _ _ _ h, Stmt.table, pendingOps_writes, Stmt.ops, rowsAfter_ins]
  intro it hit
  obtain ⟨l, rfl, hl⟩ := mem_writes hit
  intro _ op ho
  obtain ⟨r, _, rfl⟩ := List.mem_map.1 (hl op ho)
  rfl

theorem rowsAfter_del {w : Row → Bool} {α : Type} : ∀ (l : List α) (rows : List Row), rows.countP w = l.length →
    rowsAfter (l.map fun _ => .del w) rows = rows.filter fun r => !w r
  | [], rows, h => by
    simp only [List.map_nil, rowsAfter]
    rw [List.length_nil, List.countP_eq_zero] at h
    rw [List.filter_eq_self.2]
    intro r hr
    simpa using h r hr
  | a :: l, rows, h => by
    simp only [List.map_cons, rowsAfter]
    have hpos : 0 < rows.countP w := by rw [h]; simp
    obtain ⟨r, hr, hw⟩ := List.countP_pos_iff.1 hpos
    obtain ⟨x, l1, l2, h1, h2, h3, h4⟩ := List.exists_of_eraseP hr hw
    have hc : l1.countP w = 0 := List.countP_eq_zero.2 h1
    rw [rowsAfter_del l, h4, h3]
    · simp [List.filter_append, h2]
    · rw [h4]
      rw [h3] at h
      simp only [List.countP_append, List.countP_cons, h2, if_true, List.length_cons] at h ⊢
      omega

theorem targetsOf_count (rows : List Row) (w : Row → Bool) : (targetsOf rows w).length = rows.countP w := by
  rw [targetsOf_length, List.countP_eq_length_filter]

/-- A DELETE removes the rows that satisfy its WHERE. -/
theorem exec_delete_rows (hU : Untouched E t) {fuel : Nat} {w : Row → Bool} (h : E.exec fuel (.delete t w) db = .ok db') :
    db'.rows t = (db.rows t).filter fun r => !w r := by
  rw [Engine.exec, Engine.start] at h
  rw [drain_rows hU _ _ _ _ h, Stmt.table, pendingOps_writes, Stmt.ops, rowsAfter_del _ _ (targetsOf_count _ _).symm]
  intro it hit
  obtain ⟨l, rfl, hl⟩ := mem_writes hit
  intro _ op ho
  obtain ⟨r, _, rfl⟩ := List.mem_map.1 (hl op ho)
  rfl

end Denorm

namespace Denorm
variable {A : App} {E : Engine} {db db' : Db} {t : TableName} {om : OrmModel} {mem mem' : Row}

/-- A statement on another table leaves a table alone that triggers do not write. -/
theorem exec_rows_other (hU : Untouched E t) {fuel : Nat} {s : Stmt} (ht : s.table ≠ t) (h : E.exec fuel s db = .ok db') :
    db'.rows t = db.rows t := by
  rw [Engine.exec, Engine.start] at h
  rw [drain_rows hU _ _ _ _ h]
  · have h1 : ∀ l : List RowOp, pendingOps t (l.map fun op => Item.write .top s.table [op]) = [] := by
      intro l
      induction l with
      | nil => rfl
      | cons a l ih => simp [pendingOps, ht, ih]
    have : pendingOps t (writes E.backend .top s.table (s.ops db)) = [] := by
      cases E.backend <;> simp [writes, h1, pendingOps, ht]
    rw [this]; rfl
  · intro it hit
    obtain ⟨l, rfl, _⟩ := mem_writes hit
    exact fun e => absurd e ht

/-- No trigger writes the column. -/
def ColUntouched (E : Engine) (t : TableName) (c : Col) : Prop :=
  ∀ tr ∈ E.triggers, ∀ u, Action.update u ∈ tr.actions → (u.table, u.col) ≠ (t, c)

/-- Pending work keeps column `c` of table `t`. -/
def KeepsCol (t : TableName) (c : Col) : Item → Prop
  | .write _ t' ops => t' = t → ∀ op ∈ ops, ∃ i σ, op = .upd i σ ∧ ∀ x r, σ x r c = r c
  | .act _ _ (.update u) => (u.table, u.col) ≠ (t, c)
  | .act .. => True

theorem keepsColInv {c : Col} (hU : ColUntouched E t c) (vs : List Val) :
    StepInv E fun W db => (db.rows t).map (fun r => r c) = vs ∧ ∀ it ∈ W, KeepsCol t c it where
  perm := fun hp ⟨h1, h2⟩ => ⟨h1, fun it hit => h2 it (hp.mem_iff.2 hit)⟩
  writeNil := fun ⟨h1, h2⟩ => ⟨h1, fun it hit => h2 it (List.mem_cons_of_mem _ hit)⟩
  writeOp := by
    rintro fr t' op ops W db ⟨h1, h2⟩
    have h3 := h2 _ (List.mem_cons_self ..)
    refine ⟨?_, fun it hit => ?_⟩
    · by_cases ht : t' = t
      · subst ht
        obtain ⟨i, σ, rfl, hσ⟩ := h3 rfl op (List.mem_cons_self ..)
        rw [← h1]
        simp only [applyOp]
        cases hi : (db.rows t')[i]? with
        | none => rfl
        | some old =>
          simp only [Db.setRows_same, List.map_set, hσ]
          obtain ⟨hil, hie⟩ := List.getElem?_eq_some_iff.1 hi
          rw [show old c = ((db.rows t').map fun r => r c)[i]'(by simpa using hil) from by simp [hie]]
          exact List.set_getElem_self _
      · rw [← h1, applyOp_rows_other E op db (Ne.symm ht)]
    · rcases List.mem_cons.1 hit with rfl | hit
      · exact fun e op ho => h3 e op (List.mem_cons_of_mem _ ho)
      rcases List.mem_append.1 hit with hit | hit
      · obtain ⟨ch, _, hit⟩ := List.mem_flatMap.1 hit
        obtain ⟨tr, htr, _, a, ha, rfl⟩ := mem_fired.1 hit
        cases a with
        | update u => exact hU tr htr u ha
        | markValues => trivial
        | markSelect => trivial
      · exact h2 it (List.mem_cons_of_mem _ hit)
  markValues := fun ⟨h1, h2⟩ => ⟨h1, fun it hit => h2 it (List.mem_cons_of_mem _ hit)⟩
  markSelect := fun ⟨h1, h2⟩ => ⟨h1, fun it hit => h2 it (List.mem_cons_of_mem _ hit)⟩
  update := by
    rintro fr ch u W db _ ⟨h1, h2⟩
    refine ⟨h1, fun it hit => ?_⟩
    rcases List.mem_append.1 hit with hit | hit
    · obtain ⟨l, rfl, hl⟩ := mem_writes hit
      intro e op ho
      obtain ⟨i, _, rfl⟩ := List.mem_map.1 (hl op ho)
      have hne : (u.table, u.col) ≠ (t, c) := h2 _ (List.mem_cons_self ..)
      refine ⟨i, _, rfl, fun x r => ?_⟩
      have : c ≠ u.col := fun e' => hne (by rw [e, e'])
      simp [UpdAction.set, Row.set, this]
    · exact h2 it (List.mem_cons_of_mem _ hit)

/-- A statement on another table keeps a column that no trigger writes. -/
theorem exec_col_other {c : Col} (hU : ColUntouched E t c) {fuel : Nat} {s : Stmt} (ht : s.table ≠ t) (h : E.exec fuel s db = .ok db') :
    (db'.rows t).map (fun r => r c) = (db.rows t).map fun r => r c := by
  rw [Engine.exec, Engine.start] at h
  refine ((keepsColInv hU _).drain _ _ _ _ h ⟨rfl, ?_⟩).1
  intro it hit
  obtain ⟨l, rfl, _⟩ := mem_writes hit
  exact fun e => absurd e ht

theorem saveSafe_of {c : Col} (hU : ColUntouched E om.model.table c) : SaveSafe E om c := by
  refine .inr fun h => ?_
  have : ∀ t c', SaveReached E om t c' → ¬ (t = om.model.table ∧ c' = c) := by
    intro t c' h
    cases h with
    | inserted htr _ _ hu => rintro ⟨h1, h2⟩; exact hU _ htr _ hu (by rw [h1, h2])
    | updated htr _ _ _ hu => rintro ⟨h1, h2⟩; exact hU _ htr _ hu (by rw [h1, h2])
    | next _ htr _ _ _ hu => rintro ⟨h1, h2⟩; exact hU _ htr _ hu (by rw [h1, h2])
  exact this _ _ h ⟨rfl, rfl⟩

/-! ## `manager.set` -/

theorem mem_setPlan_left {v : Val} : ∀ {vs old : List Val}, v ∈ (setPlan old vs).1 ↔ v ∈ old ∧ v ∉ vs
  | [], old => by simp [setPlan]
  | x :: vs, old => by
    simp only [setPlan]
    by_cases hx : x ∈ old
    · rw [if_pos hx, mem_setPlan_left]
      simp only [List.mem_filter, decide_eq_true_eq, List.mem_cons, not_or]
      exact ⟨fun ⟨⟨h1, h2⟩, h3⟩ => ⟨h1, h2, h3⟩, fun ⟨h1, h2, h3⟩ => ⟨⟨h1, h2⟩, h3⟩⟩
    · rw [if_neg hx, mem_setPlan_left]
      simp only [List.mem_cons, not_or]
      exact ⟨fun ⟨h1, h2⟩ => ⟨h1, fun e => hx (e ▸ h1), h2⟩, fun ⟨h1, _, h2⟩ => ⟨h1, h2⟩⟩

theorem setPlan_right_sub {v : Val} : ∀ {vs old : List Val}, v ∈ (setPlan old vs).2 → v ∈ vs
  | [], old => by simp [setPlan]
  | x :: vs, old => by
    simp only [setPlan]
    by_cases hx : x ∈ old
    · rw [if_pos hx]; exact fun h => List.mem_cons_of_mem _ (setPlan_right_sub h)
    · rw [if_neg hx]
      intro h
      rcases List.mem_cons.1 h with rfl | h
      · exact List.mem_cons_self ..
      · exact List.mem_cons_of_mem _ (setPlan_right_sub h)

theorem setPlan_right_new {v : Val} : ∀ {vs old : List Val}, v ∈ vs → v ∉ old → v ∈ (setPlan old vs).2
  | [], old, h, _ => by simp at h
  | x :: vs, old, h, hv => by
    simp only [setPlan]
    by_cases hx : x ∈ old
    · rw [if_pos hx]
      rcases List.mem_cons.1 h with rfl | h
      · exact absurd hx hv
      · exact setPlan_right_new h fun h' => hv (List.mem_filter.1 h').1
    · rw [if_neg hx]
      rcases List.mem_cons.1 h with rfl | h
      · exact List.mem_cons_self ..
      · exact List.mem_cons_of_mem _ (setPlan_right_new h hv)

end Denorm
