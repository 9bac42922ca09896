import Verif.Lemmas.Confined
/-!
# Saving one instance
-/
namespace Denorm

/-! ## pre_save -/

theorem preSaveAll_append {A : App} {m : Model} {db : Db} {add : Bool} : ∀ {pre post : List SaveField} {mem mem' : Row},
    preSaveAll A m db add (pre ++ post) mem = .ok mem' →
    ∃ mid, preSaveAll A m db add pre mem = .ok mid ∧ preSaveAll A m db add post mid = .ok mem'
  | [], _, mem, _, h => ⟨mem, rfl, h⟩
  | f :: pre, post, mem, mem', h => by
    simp only [List.cons_append, preSaveAll] at h ⊢
    cases hv : f.preSave A m db add mem with
    | error e => rw [hv] at h; simp at h
    | ok v =>
      rw [hv] at h
      exact preSaveAll_append h

/-- Attributes that are not computed keep the loaded value. -/
theorem preSaveAll_plain {A : App} {m : Model} {db : Db} {r : Row} (hr : (db.rows m.table).find? (isRowOf m (r m.pk)) = some r) :
    ∀ {fs : List SaveField} {mem mem' : Row}, preSaveAll A m db false fs mem = .ok mem' → mem m.pk = r m.pk →
      (∀ f ∈ fs, f.col ≠ m.pk) → ∀ c, (∀ f ∈ fs, f.kind.computed = true → f.col ≠ c) → mem c = r c → mem' c = r c
  | [], mem, mem', h, _, _, c, _, hm => by
    simp only [preSaveAll, Except.ok.injEq] at h
    exact h ▸ hm
  | f :: fs, mem, mem', h, hpk, hnpk, c, hc, hm => by
    simp only [preSaveAll] at h
    cases hv : f.preSave A m db false mem with
    | error e => rw [hv] at h; simp at h
    | ok v =>
      rw [hv] at h
      refine preSaveAll_plain hr h ?_ (fun g hg => hnpk g (List.mem_cons_of_mem _ hg)) c
        (fun g hg => hc g (List.mem_cons_of_mem _ hg)) ?_
      · have := hnpk f (List.mem_cons_self ..)
        simp only [Row.set, Ne.symm this, if_false]; exact hpk
      · by_cases hcf : c = f.col
        · subst hcf
          have hk := hc f (List.mem_cons_self ..)
          simp only [Row.set, if_true]
          simp only [SaveField.preSave] at hv
          cases hkind : f.kind with
          | plain => rw [hkind] at hv; simp only [Except.ok.injEq] at hv; rw [← hv]; exact hm
          | callback cb => rw [hkind] at hk; simp [Kind.computed] at hk
          | cacheKey => rw [hkind] at hk; simp [Kind.computed] at hk
          | aggregate =>
            rw [hkind] at hv
            simp only [Bool.false_eq_true, if_false] at hv
            rw [show (fun r => Val.sqlEq (r m.pk) (mem m.pk)) = isRowOf m (r m.pk) from by funext x; simp [isRowOf, hpk], hr] at hv
            simp only [Except.ok.injEq] at hv
            exact hv.symm
        · simp only [Row.set, hcf, if_false]; exact hm

/-- Attributes of columns that are not among the fields do not change. -/
theorem preSaveAll_other {A : App} {m : Model} {db : Db} {add : Bool} : ∀ {fs : List SaveField} {mem mem' : Row},
    preSaveAll A m db add fs mem = .ok mem' → ∀ c, (∀ f ∈ fs, f.col ≠ c) → mem' c = mem c
  | [], mem, mem', h, c, _ => by
    simp only [preSaveAll, Except.ok.injEq] at h
    rw [h]
  | f :: fs, mem, mem', h, c, hc => by
    simp only [preSaveAll] at h
    cases hv : f.preSave A m db add mem with
    | error e => rw [hv] at h; simp at h
    | ok v =>
      rw [hv] at h
      rw [preSaveAll_other h c fun g hg => hc g (List.mem_cons_of_mem _ hg)]
      have := hc f (List.mem_cons_self ..)
      simp [Row.set, Ne.symm this]

/-! ## The UPDATE -/

/-- The row at position `i` is the only one with its key. -/
theorem targetsOf_unique {m : Model} {rows : List Row} (hu : (rows.map fun r => r m.pk).Nodup) {i : Nat} {r : Row} {k : Val}
    (hi : rows[i]? = some r) (hk : r m.pk = k) (hn : k ≠ .null) : targetsOf rows (isRowOf m k) = [i] := by
  have hall : ∀ j ∈ targetsOf rows (isRowOf m k), j = i := by
    intro j hj
    obtain ⟨r', hr', hw⟩ := mem_targetsOf.1 hj
    have hk' : r' m.pk = k := (Val.sqlEq_iff.1 hw).1
    obtain ⟨hjl, hje⟩ := List.getElem?_eq_some_iff.1 hr'
    obtain ⟨hil, hie⟩ := List.getElem?_eq_some_iff.1 hi
    have := (List.getElem_inj (h₀ := by simpa using hjl) (h₁ := by simpa using hil) hu).1 (by simp [hje, hie, hk, hk'])
    exact this
  have hmem : i ∈ targetsOf rows (isRowOf m k) := mem_targetsOf.2 ⟨r, hi, Val.sqlEq_iff.2 ⟨hk, hk ▸ hn⟩⟩
  have hnd := nodup_targetsOf rows (isRowOf m k)
  match hT : targetsOf rows (isRowOf m k) with
  | [] => rw [hT] at hmem; simp at hmem
  | [a] => rw [hT] at hall; rw [hall a (by simp)]
  | a :: b :: l =>
    rw [hT] at hall hnd
    have h1 := hall a (by simp)
    have h2 := hall b (by simp)
    simp [h1, h2] at hnd

/-- A saved row: the saved columns get the instance's values. -/
def savedRow (om : OrmModel) (mem r : Row) : Row := fun c => if c ∈ om.saved.map SaveField.col then mem c else r c

theorem reached_closed (E : Engine) (om : OrmModel) : Closed E (Reached E om) :=
  fun _ _ h _ htr ht he hc _ hu => .next h htr ht he hc hu

/-- The effect of saving an existing instance: its row is rewritten, then triggers change columns they can reach. -/
theorem saveUpdate_effect {E : Engine} {om : OrmModel} {fuel : Nat} {db db' : Db} {mem r : Row} {i : Nat}
    (hu : ((db.rows om.model.table).map fun r => r om.model.pk).Nodup) (hi : (db.rows om.model.table)[i]? = some r)
    (hk : r om.model.pk = mem om.model.pk) (hn : r om.model.pk ≠ .null)
    (hsame : ∀ c, c ∉ om.denormCols → savedRow om mem r c = r c)
    (he : E.exec fuel (saveUpdate om mem) db = .ok db') :
    ∃ db1 : Db, db1.rows om.model.table = (db.rows om.model.table).set i (savedRow om mem r) ∧
      (∀ t, t ≠ om.model.table → db1.rows t = db.rows t) ∧ SameOutside (Reached E om) db1 db' := by
  have hT : targetsOf (db.rows om.model.table) (isRowOf om.model (mem om.model.pk)) = [i] :=
    targetsOf_unique hu hi hk (hk ▸ hn)
  have hstart : E.start (saveUpdate om mem) db = [.write .top om.model.table [.upd i fun _ r => savedRow om mem r]] := by
    simp only [Engine.start, saveUpdate, Stmt.ops, Stmt.table, hT]
    cases E.backend <;> rfl
  rw [Engine.exec, hstart] at he
  cases fuel with
  | zero => simp [Engine.drain] at he
  | succ n =>
    simp only [Engine.drain, Engine.step, applyOps, applyOp, hi, List.append_nil] at he
    refine ⟨{ db.setRows om.model.table ((db.rows om.model.table).set i (savedRow om mem r)) with draws := db.draws + 1 },
      Db.setRows_same _ _ _, fun t ht => Db.setRows_other _ _ ht, ?_⟩
    have := (confinedInv (reached_closed E om) _).drain _ _ _ _ he ⟨SameOutside.refl _ _, ?_⟩
    · exact this.1
    · simp only [List.flatMap_cons, List.flatMap_nil, List.append_nil]
      refine within_fired ?_
      intro tr htr htab hev hc u hu'
      refine .direct htr htab hev (hc.imp id ?_) hu'
      rintro ⟨c, hcm, hne⟩
      refine ⟨c, hcm, Classical.byContradiction fun h => hne (hsame c h).symm⟩

end Denorm
