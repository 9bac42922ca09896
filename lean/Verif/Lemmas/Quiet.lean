import Verif.Lemmas.Engine
/-!
# UPDATE statements that fire no trigger
-/
namespace Denorm

theorem Engine.drain_mono {E : Engine} : ∀ {n : Nat} {W : List Item} {db db' : Db}, E.drain n W db = .ok db' →
    ∀ m, n ≤ m → E.drain m W db = .ok db'
  | _, [], _, _, h, m, _ => by cases m <;> simpa [Engine.drain] using h
  | 0, _ :: _, _, _, h, _, _ => by simp [Engine.drain] at h
  | n + 1, it :: W, db, db', h, m, hm => by
    obtain ⟨m, rfl⟩ : ∃ k, m = k + 1 := ⟨m - 1, by omega⟩
    simp only [Engine.drain] at h ⊢
    split at h
    · rename_i new db1 hs
      exact Engine.drain_mono h m (by omega)
    · simp at h

/-- The positions an item is about to update. -/
def Item.targets : Item → List Nat
  | .write _ _ ops => ops.filterMap fun op => match op with
    | .upd i _ => some i
    | _ => none
  | .act .. => []

/-- `db` is `db0` with some of the rows of `t` that satisfy `w` rewritten by `σ`; those at positions `pend` not yet. -/
structure QuietInv (t : TableName) (w : Row → Bool) (σ : Int → Row → Row) (db0 : Db) (pend : List Nat) (db : Db) : Prop where
  nodup : pend.Nodup
  dirty : db.dirty = db0.dirty
  other : ∀ t', t' ≠ t → db.rows t' = db0.rows t'
  length : (db.rows t).length = (db0.rows t).length
  todo : ∀ i ∈ pend, ∃ r, (db.rows t)[i]? = some r ∧ (db0.rows t)[i]? = some r ∧ w r = true
  done : ∀ i, i ∉ pend → ∀ r, (db0.rows t)[i]? = some r →
    if w r = true then ∃ x, (db.rows t)[i]? = some (σ x r) else (db.rows t)[i]? = some r

/-- Nothing fires for the updates of a statement. -/
def Silent (E : Engine) (t : TableName) (w : Row → Bool) (σ : Int → Row → Row) (db0 : Db) : Prop :=
  ∀ r ∈ db0.rows t, w r = true → ∀ x fr, E.fired fr ⟨t, .update, r, σ x r⟩ = []

theorem quiet_op {E : Engine} {t : TableName} {w : Row → Bool} {σ : Int → Row → Row} {db0 db : Db} (hq : Silent E t w σ db0)
    {i : Nat} {pend : List Nat} (h : QuietInv t w σ db0 (i :: pend) db) (fr : Frame) :
    (applyOp E t (.upd i σ) db).2.flatMap (E.fired fr) = [] ∧ QuietInv t w σ db0 pend (applyOp E t (.upd i σ) db).1 := by
  obtain ⟨r, h1, h2, h3⟩ := h.todo i (List.mem_cons_self ..)
  have hnd := List.nodup_cons.1 h.nodup
  simp only [applyOp, h1]
  refine ⟨?_, hnd.2, h.dirty, fun t' ht' => ?_, ?_, ?_, ?_⟩
  · simpa using hq r (List.mem_of_getElem? h2) h3 _ fr
  · rw [← h.other t' ht']; exact Db.setRows_other _ _ ht'
  · simp [h.length]
  · intro j hj
    obtain ⟨r', h4, h5, h6⟩ := h.todo j (List.mem_cons_of_mem _ hj)
    have hij : i ≠ j := fun e => hnd.1 (e ▸ hj)
    exact ⟨r', by simp [List.getElem?_set_ne hij, h4], h5, h6⟩
  · intro j hj r' h4
    by_cases hij : i = j
    · subst hij
      rw [h2] at h4
      simp only [Option.some.injEq] at h4
      subst h4
      have hlt : i < (db.rows t).length := (List.getElem?_eq_some_iff.1 h1).1
      simp only [h3, if_true]
      exact ⟨_, by simp [hlt]; rfl⟩
    · have := h.done j (by simp [hj, Ne.symm hij]) r' h4
      simpa [List.getElem?_set_ne hij] using this

theorem quiet_ops {E : Engine} {t : TableName} {w : Row → Bool} {σ : Int → Row → Row} {db0 : Db} (hq : Silent E t w σ db0)
    (fr : Frame) (rest : List Nat) : ∀ (is : List Nat) (db : Db), QuietInv t w σ db0 (is ++ rest) db →
    (applyOps E t (is.map fun i => .upd i σ) db).2.flatMap (E.fired fr) = [] ∧
      QuietInv t w σ db0 rest (applyOps E t (is.map fun i => .upd i σ) db).1
  | [], db, h => ⟨rfl, h⟩
  | i :: is, db, h => by
    obtain ⟨h1, h2⟩ := quiet_op hq h fr
    obtain ⟨h3, h4⟩ := quiet_ops hq fr rest is _ h2
    simp only [List.map_cons, applyOps, List.flatMap_append, h1, h3, List.append_nil]
    exact ⟨trivial, h4⟩

theorem quiet_drain {E : Engine} {t : TableName} {w : Row → Bool} {σ : Int → Row → Row} {db0 : Db} (hq : Silent E t w σ db0)
    (fr : Frame) : ∀ (iss : List (List Nat)) (n : Nat) (db : Db), iss.length ≤ n → QuietInv t w σ db0 iss.flatten db →
    ∃ db', E.drain n (iss.map fun is => .write fr t (is.map fun i => .upd i σ)) db = .ok db' ∧ QuietInv t w σ db0 [] db'
  | [], n, db, _, h => ⟨db, by cases n <;> rfl, h⟩
  | is :: iss, 0, db, hn, h => by simp at hn
  | is :: iss, n + 1, db, hn, h => by
    obtain ⟨h1, h2⟩ := quiet_ops hq fr iss.flatten is db h
    obtain ⟨db', h3, h4⟩ := quiet_drain hq fr iss n _ (by simpa using hn) h2
    refine ⟨db', ?_, h4⟩
    simp only [List.map_cons, Engine.drain, Engine.step, h1, List.nil_append]
    exact h3

/-- An UPDATE that fires no trigger. -/
theorem quiet_exec {E : Engine} {t : TableName} {w : Row → Bool} {σ : Int → Row → Row} {db : Db} (hq : Silent E t w σ db)
    {fuel : Nat} (hf : (db.rows t).length + 1 ≤ fuel) :
    ∃ db', E.exec fuel (.update t w σ) db = .ok db' ∧ QuietInv t w σ db [] db' := by
  have hI : QuietInv t w σ db (targetsOf (db.rows t) w) db := by
    refine ⟨nodup_targetsOf _ _, rfl, fun _ _ => rfl, rfl, ?_, ?_⟩
    · intro i hi
      obtain ⟨r, h1, h2⟩ := mem_targetsOf.1 hi
      exact ⟨r, h1, h1, h2⟩
    · intro i hi r hr
      split
      · rename_i hw
        exact absurd (mem_targetsOf.2 ⟨r, hr, hw⟩) hi
      · exact hr
  have hlen : (targetsOf (db.rows t) w).length ≤ (db.rows t).length := by
    unfold targetsOf
    exact Nat.le_trans (List.length_filter_le _ _) (by simp)
  have hfl : ∀ l : List Nat, (l.map fun i => [i]).flatten = l := by
    intro l; induction l with
    | nil => rfl
    | cons a l ih => simp [ih]
  simp only [Engine.exec, Engine.start, Stmt.ops, Stmt.table]
  by_cases hb : E.backend = .postgresql
  · rw [hb]
    obtain ⟨db', h1, h2⟩ := quiet_drain hq .top [targetsOf (db.rows t) w] fuel db (by simp; omega) (by simpa using hI)
    exact ⟨db', by simpa [writes] using h1, h2⟩
  · obtain ⟨db', h1, h2⟩ := quiet_drain hq .top ((targetsOf (db.rows t) w).map fun i => [i]) fuel db (by simp; omega)
      (by rw [hfl]; exact hI)
    refine ⟨db', ?_, h2⟩
    rw [← h1]
    cases hb' : E.backend
    · simp [writes, Function.comp_def]
    · simp [writes, Function.comp_def]
    · exact absurd hb' hb

theorem quiet_exec_ok {E : Engine} {t : TableName} {w : Row → Bool} {σ : Int → Row → Row} {db db' : Db} (hq : Silent E t w σ db)
    {fuel : Nat} (he : E.exec fuel (.update t w σ) db = .ok db') : QuietInv t w σ db [] db' := by
  obtain ⟨db2, h1, h2⟩ := quiet_exec (E := E) hq (Nat.le_max_left ((db.rows t).length + 1) fuel)
  have := Engine.drain_mono he _ (Nat.le_max_right ((db.rows t).length + 1) fuel)
  rw [Engine.exec, this] at h1
  simp only [Except.ok.injEq] at h1
  exact h1 ▸ h2

end Denorm
