import Verif.Spec.Reach
/-!
# Invariants of a running statement

A property of (work left, database) that every small step keeps is kept by whole statements.
-/
namespace Denorm

/-- What has to be shown for an invariant `I` of a running statement. `I` may not depend on the order of the work left. -/
structure StepInv (E : Engine) (I : List Item → Db → Prop) : Prop where
  perm : ∀ {W W' db}, W.Perm W' → I W db → I W' db
  writeNil : ∀ {fr t W db}, I (.write fr t [] :: W) db → I W db
  writeOp : ∀ {fr t op ops W db}, I (.write fr t (op :: ops) :: W) db →
    I (.write fr t ops :: ((applyOp E t op db).2.flatMap (E.fired fr) ++ W)) (applyOp E t op db).1
  markValues : ∀ {fr ch ct s c q W db}, I (.act fr ch (.markValues ct s c q) :: W) db →
    I W (db.addMarks [⟨ct, ch.side s c⟩])
  markSelect : ∀ {fr ch ct sel t k s c q W db}, I (.act fr ch (.markSelect ct sel t k s c q) :: W) db →
    I W (db.addMarks (selectMarks ct sel (db.rows t) k (ch.side s c)))
  update : ∀ {fr ch u W db}, ¬ (E.backend = .mysql ∧ u.table ∈ fr.tables) → I (.act fr ch (.update u) :: W) db →
    I (writes E.backend fr u.table (u.ops ch db) ++ W) db

theorem StepInv.write {E : Engine} {I : List Item → Db → Prop} (h : StepInv E I) (fr : Frame) (t : TableName) :
    ∀ (ops : List RowOp) (W : List Item) (db : Db), I (.write fr t ops :: W) db →
      I ((applyOps E t ops db).2.flatMap (E.fired fr) ++ W) (applyOps E t ops db).1
  | [], W, db, hI => by simpa [applyOps] using h.writeNil hI
  | op :: ops, W, db, hI => by
    have h1 := h.writeOp hI
    have h2 := h.write fr t ops _ _ h1
    refine h.perm ?_ h2
    simp only [applyOps, List.flatMap_append, List.append_assoc]
    rw [← List.append_assoc, ← List.append_assoc]
    exact List.Perm.append_right _ List.perm_append_comm

theorem StepInv.step {E : Engine} {I : List Item → Db → Prop} (h : StepInv E I) {it : Item} {W new : List Item}
    {db db' : Db} (hs : E.step it db = .ok (new, db')) (hI : I (it :: W) db) : I (new ++ W) db' := by
  cases it with
  | write fr t ops =>
    simp only [Engine.step, Except.ok.injEq, Prod.mk.injEq] at hs
    obtain ⟨rfl, rfl⟩ := hs
    exact h.write fr t ops W db hI
  | act fr ch a =>
    cases a with
    | markValues ct s c q =>
      simp only [Engine.step, Except.ok.injEq, Prod.mk.injEq] at hs
      obtain ⟨rfl, rfl⟩ := hs
      exact h.markValues hI
    | markSelect ct sel t k s c q =>
      simp only [Engine.step, Except.ok.injEq, Prod.mk.injEq] at hs
      obtain ⟨rfl, rfl⟩ := hs
      exact h.markSelect hI
    | update u =>
      simp only [Engine.step] at hs
      split at hs
      · simp at hs
      · rename_i hb
        simp only [Except.ok.injEq, Prod.mk.injEq] at hs
        obtain ⟨rfl, rfl⟩ := hs
        exact h.update hb hI

theorem StepInv.drain {E : Engine} {I : List Item → Db → Prop} (h : StepInv E I) :
    ∀ (n : Nat) (W : List Item) (db db' : Db), E.drain n W db = .ok db' → I W db → I [] db'
  | _, [], db, db', hd, hI => by
    simp only [Engine.drain, Except.ok.injEq] at hd
    exact hd ▸ hI
  | 0, _ :: _, _, _, hd, _ => by simp [Engine.drain] at hd
  | n + 1, it :: W, db, db', hd, hI => by
    simp only [Engine.drain] at hd
    split at hd
    · rename_i new db1 hs
      exact h.drain n _ _ _ hd (h.step hs hI)
    · simp at hd

theorem StepInv.exec {E : Engine} {I : List Item → Db → Prop} (h : StepInv E I) {fuel : Nat} {s : Stmt} {db db' : Db}
    (he : E.exec fuel s db = .ok db') (hI : I (E.start s db) db) : I [] db' :=
  h.drain _ _ _ _ he hI

/-- `I` holds for a list of pending writes iff .. it holds for them one by one: from `writes`. -/
theorem mem_writes {b : Backend} {fr : Frame} {t : TableName} {ops : List RowOp} {it : Item} (h : it ∈ writes b fr t ops) :
    ∃ l, it = .write fr t l ∧ ∀ op ∈ l, op ∈ ops := by
  cases b <;> simp only [writes, List.mem_map, List.mem_singleton] at h
  · obtain ⟨op, ho, rfl⟩ := h; exact ⟨[op], rfl, by simpa using ho⟩
  · obtain ⟨op, ho, rfl⟩ := h; exact ⟨[op], rfl, by simpa using ho⟩
  · exact ⟨ops, h, fun _ h => h⟩

theorem StepInv.reach {E : Engine} {I : List Item → Db → Prop} (h : StepInv E I) {W W' : List Item} {db db' : Db}
    (hr : E.Reach W db W' db') (hI : I W db) : I W' db' := by
  induction hr with
  | refl => exact hI
  | step hs _ ih => exact ih (h.step hs hI)

theorem Engine.reach_of_drain {E : Engine} : ∀ (n : Nat) (W : List Item) (db db' : Db), E.drain n W db = .ok db' →
    E.Reach W db [] db'
  | _, [], db, db', hd => by
    simp only [Engine.drain, Except.ok.injEq] at hd
    exact hd ▸ .refl _ _
  | 0, _ :: _, _, _, hd => by simp [Engine.drain] at hd
  | n + 1, it :: W, db, db', hd => by
    simp only [Engine.drain] at hd
    split at hd
    · rename_i new db1 hs
      exact .step hs (Engine.reach_of_drain n _ _ _ hd)
    · simp at hd

/-! ## Small facts -/

theorem Val.sqlEq_iff {a b : Val} : Val.sqlEq a b = true ↔ a = b ∧ a ≠ .null := by
  cases a <;> cases b <;> simp [Val.sqlEq, Val.eq3]

theorem changedCols_iff {fs : List Col} {o n : Row} : changedCols fs o n = true ↔ ∃ f ∈ fs, o f ≠ n f := by
  simp [changedCols, Val.isNot]

theorem changedCols_false {fs : List Col} {o n : Row} : changedCols fs o n = false ↔ ∀ f ∈ fs, o f = n f := by
  simp [changedCols, Val.isNot]

theorem mem_dedupFrom {α : Type _} [DecidableEq α] {a : α} : ∀ {l seen : List α},
    a ∈ dedupFrom seen l ↔ a ∈ l ∧ a ∉ seen
  | [], seen => by simp [dedupFrom]
  | b :: l, seen => by
    simp only [dedupFrom]
    split
    · rename_i hb
      rw [mem_dedupFrom (l := l)]
      constructor
      · rintro ⟨h1, h2⟩; exact ⟨List.mem_cons_of_mem _ h1, h2⟩
      · rintro ⟨h1, h2⟩
        rcases List.mem_cons.1 h1 with rfl | h1
        · exact absurd hb h2
        · exact ⟨h1, h2⟩
    · rename_i hb
      rw [List.mem_cons, mem_dedupFrom (l := l)]
      constructor
      · rintro (rfl | ⟨h1, h2⟩)
        · exact ⟨List.mem_cons_self, hb⟩
        · exact ⟨List.mem_cons_of_mem _ h1, fun h => h2 (List.mem_cons_of_mem _ h)⟩
      · rintro ⟨h1, h2⟩
        by_cases hab : a = b
        · exact .inl hab
        · rcases List.mem_cons.1 h1 with rfl | h1
          · exact absurd rfl hab
          · exact .inr ⟨h1, fun h => (List.mem_cons.1 h).elim hab h2⟩

theorem mem_dedup {α : Type _} [DecidableEq α] {a : α} {l : List α} : a ∈ dedup l ↔ a ∈ l := by
  simp [dedup, mem_dedupFrom]

theorem nodup_dedupFrom {α : Type _} [DecidableEq α] : ∀ (l seen : List α), (dedupFrom seen l).Nodup
  | [], seen => by simp [dedupFrom]
  | b :: l, seen => by
    simp only [dedupFrom]
    split
    · exact nodup_dedupFrom l seen
    · exact List.nodup_cons.2 ⟨fun h => (mem_dedupFrom.1 h).2 List.mem_cons_self, nodup_dedupFrom l _⟩

theorem nodup_dedup {α : Type _} [DecidableEq α] (l : List α) : (dedup l).Nodup := nodup_dedupFrom l []

theorem mem_selectMarks {ct : Nat} {sel : Col} {rows : List Row} {k : Col} {v : Val} {m : Mark} :
    m ∈ selectMarks ct sel rows k v ↔ ∃ r ∈ rows, Val.sqlEq (r k) v = true ∧ m = ⟨ct, r sel⟩ := by
  simp only [selectMarks, mem_dedup, List.mem_map, List.mem_filter]
  constructor
  · rintro ⟨r, ⟨h1, h2⟩, rfl⟩; exact ⟨r, h1, h2, rfl⟩
  · rintro ⟨r, h1, h2, rfl⟩; exact ⟨r, ⟨h1, h2⟩, rfl⟩

@[simp] theorem Db.setRows_same (db : Db) (t : TableName) (rs : List Row) : (db.setRows t rs).rows t = rs := by
  simp [Db.setRows]

theorem Db.setRows_other (db : Db) {t t' : TableName} (rs : List Row) (h : t' ≠ t) :
    (db.setRows t rs).rows t' = db.rows t' := by
  simp [Db.setRows, h]

@[simp] theorem Db.setRows_dirty (db : Db) (t : TableName) (rs : List Row) : (db.setRows t rs).dirty = db.dirty := rfl
@[simp] theorem Db.setRows_draws (db : Db) (t : TableName) (rs : List Row) : (db.setRows t rs).draws = db.draws := rfl
@[simp] theorem Db.addMarks_rows (db : Db) (ms : List Mark) : (db.addMarks ms).rows = db.rows := rfl
@[simp] theorem Db.addMarks_dirty (db : Db) (ms : List Mark) : (db.addMarks ms).dirty = db.dirty ++ ms := rfl
@[simp] theorem Db.addMarks_draws (db : Db) (ms : List Mark) : (db.addMarks ms).draws = db.draws := rfl

theorem mem_targetsOf {rows : List Row} {w : Row → Bool} {i : Nat} :
    i ∈ targetsOf rows w ↔ ∃ r, rows[i]? = some r ∧ w r = true := by
  simp only [targetsOf, List.mem_filter, List.mem_range]
  constructor
  · rintro ⟨h1, h2⟩
    rw [List.getElem?_eq_getElem h1] at h2
    exact ⟨_, List.getElem?_eq_getElem h1, h2⟩
  · rintro ⟨r, h1, h2⟩
    refine ⟨(List.getElem?_eq_some_iff.1 h1).1, by rw [h1]; exact h2⟩

theorem nodup_targetsOf (rows : List Row) (w : Row → Bool) : (targetsOf rows w).Nodup :=
  List.Nodup.sublist List.filter_sublist List.nodup_range

/-- Writing a row leaves markers and other tables alone. -/
theorem applyOp_dirty (E : Engine) (t : TableName) (op : RowOp) (db : Db) : (applyOp E t op db).1.dirty = db.dirty := by
  cases op <;> simp only [applyOp]
  · rfl
  · split <;> rfl
  · split <;> rfl

theorem applyOp_rows_other (E : Engine) {t t' : TableName} (op : RowOp) (db : Db) (h : t' ≠ t) :
    (applyOp E t op db).1.rows t' = db.rows t' := by
  cases op <;> simp only [applyOp]
  · exact Db.setRows_other _ _ h
  · split
    · rfl
    · exact Db.setRows_other _ _ h
  · split
    · rfl
    · exact Db.setRows_other _ _ h

theorem mem_fired {E : Engine} {fr : Frame} {ch : Change} {it : Item} : it ∈ E.fired fr ch ↔
    ∃ tr ∈ E.triggers, E.enters fr ch tr = true ∧ ∃ a ∈ tr.actions, it = .act ⟨tr.name :: fr.trigs, ch.table :: fr.tables⟩ ch a := by
  simp only [Engine.fired, List.mem_flatMap, List.mem_filter, List.mem_map]
  constructor
  · rintro ⟨tr, ⟨h1, h2⟩, a, h3, rfl⟩; exact ⟨tr, h1, h2, a, h3, rfl⟩
  · rintro ⟨tr, h1, h2, a, h3, rfl⟩; exact ⟨tr, ⟨h1, h2⟩, a, h3, rfl⟩

/-- The four things one row operation can do to its table. -/
inductive Effect (rs : List Row) : List Row → Option (Event × Row × Row) → Prop where
  | none : Effect rs rs none
  | ins (r) : Effect rs (rs ++ [r]) (some (.insert, r, r))
  | upd (l1 l2 old new) : rs = l1 ++ old :: l2 → Effect rs (l1 ++ new :: l2) (some (.update, old, new))
  | del (l1 l2 old) : rs = l1 ++ old :: l2 → Effect rs (l1 ++ l2) (some (.delete, old, old))

def effectChange (t : TableName) : Option (Event × Row × Row) → List Change
  | none => []
  | some (e, o, n) => [⟨t, e, o, n⟩]

theorem set_split {α : Type _} {l : List α} {i : Nat} {a : α} (b : α) (h : l[i]? = some a) :
    ∃ l1 l2, l = l1 ++ a :: l2 ∧ l.set i b = l1 ++ b :: l2 := by
  induction l generalizing i with
  | nil => simp at h
  | cons c l ih =>
    cases i with
    | zero =>
      simp only [List.getElem?_cons_zero, Option.some.injEq] at h
      exact ⟨[], l, by simp [h], by simp⟩
    | succ i =>
      simp only [List.getElem?_cons_succ] at h
      obtain ⟨l1, l2, h1, h2⟩ := ih h
      exact ⟨c :: l1, l2, by simp [h1], by simp [h2]⟩

theorem eraseP_split {α : Type _} {l : List α} {w : α → Bool} {a : α} (h : l.find? w = some a) :
    ∃ l1 l2, l = l1 ++ a :: l2 ∧ l.eraseP w = l1 ++ l2 ∧ w a = true := by
  induction l with
  | nil => simp at h
  | cons c l ih =>
    by_cases hw : w c = true
    · simp only [List.find?_cons, hw, Option.some.injEq] at h
      exact ⟨[], l, by simp [h], by simp [hw], h ▸ hw⟩
    · simp only [List.find?_cons, hw] at h
      obtain ⟨l1, l2, h1, h2, h3⟩ := ih h
      exact ⟨c :: l1, l2, by simp [h1], by simp [hw, h2], h3⟩

/-- What `applyOp` does, in one line. -/
theorem applyOp_effect (E : Engine) (t : TableName) (op : RowOp) (db : Db) :
    ∃ x, Effect (db.rows t) ((applyOp E t op db).1.rows t) x ∧ (applyOp E t op db).2 = effectChange t x ∧
      (∀ o n, x = some (.update, o, n) → ∃ i σ, op = .upd i σ ∧ n = σ (E.rand db.draws) o) ∧
      (∀ o n, x = some (.insert, o, n) → op = .ins n) ∧
      (∀ o n, x = some (.delete, o, n) → ∃ w, op = .del w ∧ w o = true) := by
  cases op with
  | ins r => exact ⟨_, by simp only [applyOp, Db.setRows_same]; exact .ins r, rfl, by simp, by simp, by simp⟩
  | upd i σ =>
    simp only [applyOp]
    split
    · exact ⟨none, .none, rfl, by simp, by simp, by simp⟩
    · rename_i old h
      obtain ⟨l1, l2, h1, h2⟩ := set_split (σ (E.rand db.draws) old) h
      refine ⟨some (.update, old, σ (E.rand db.draws) old), ?_, rfl, ?_, by simp, by simp⟩
      · simp only [Db.setRows_same, h2]; exact .upd _ _ _ _ h1
      · rintro o n h
        simp only [Option.some.injEq, Prod.mk.injEq, true_and] at h
        exact ⟨i, σ, rfl, by rw [← h.1, ← h.2]⟩
  | del w =>
    simp only [applyOp]
    split
    · exact ⟨none, .none, rfl, by simp, by simp, by simp⟩
    · rename_i old h
      obtain ⟨l1, l2, h1, h2, h3⟩ := eraseP_split h
      refine ⟨some (.delete, old, old), ?_, rfl, by simp, by simp, ?_⟩
      · simp only [Db.setRows_same, h2]; exact .del _ _ _ h1
      · rintro o n h
        simp only [Option.some.injEq, Prod.mk.injEq, true_and] at h
        exact ⟨w, rfl, h.1 ▸ h3⟩

end Denorm
