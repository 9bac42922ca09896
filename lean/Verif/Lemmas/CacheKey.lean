import Verif.Spec.CacheKey
import Verif.Lemmas.Affected
import Verif.Lemmas.Trace
/-!
# CacheKeyFields are renewed
-/
namespace Denorm

/-- The triggers dependency `d` of a CacheKeyField `fld` needs are installed and watch what is read. -/
def KeyDepTracks (E : Engine) (d : Dep) (reads : List Col) (fld : Col) : Prop :=
  match d.rel with
  | .forward f =>
    On E d.other.table .update reads none (randomUpdate d.this fld (.eq f.column .new d.other.pk)) ∧
    On E d.other.table .insert [] none (randomUpdate d.this fld (.eq f.column .new d.other.pk)) ∧
    On E d.other.table .delete [] none (randomUpdate d.this fld (.eq f.column .old d.other.pk))
  | .backward f =>
    On E d.other.table .update (f.column :: reads) none (randomUpdate d.this fld (.eq d.this.pk .new f.column)) ∧
    On E d.other.table .update (f.column :: reads) none (randomUpdate d.this fld (.eq d.this.pk .old f.column)) ∧
    On E d.other.table .insert [] none (randomUpdate d.this fld (.eq d.this.pk .new f.column)) ∧
    On E d.other.table .delete [] none (randomUpdate d.this fld (.eq d.this.pk .old f.column))
  | .forwardM2M (.generic g) =>
    let ctf := some (g.ctFieldName ++ "_id", d.this.ct)
    let cols := (g.ctFieldName ++ "_id") :: g.objectIdField :: reads
    On E g.remoteTable .update cols ctf (randomUpdate d.this fld (.eq d.this.pk .new g.objectIdField)) ∧
    On E g.remoteTable .update cols ctf (randomUpdate d.this fld (.eq d.this.pk .old g.objectIdField)) ∧
    On E g.remoteTable .insert [] ctf (randomUpdate d.this fld (.eq d.this.pk .new g.objectIdField)) ∧
    On E g.remoteTable .delete [] ctf (randomUpdate d.this fld (.eq d.this.pk .old g.objectIdField))
  | .backwardM2M (.generic _) => False
  | .forwardM2M (.m2m m) =>
    On E m.through .update [m.colName, m.revName] none (randomUpdate d.this fld (.eq d.this.pk .new m.colName)) ∧
    On E m.through .update [m.colName, m.revName] none (randomUpdate d.this fld (.eq d.this.pk .old m.colName)) ∧
    On E m.through .insert [] none (randomUpdate d.this fld (.eq d.this.pk .new m.colName)) ∧
    On E m.through .delete [] none (randomUpdate d.this fld (.eq d.this.pk .old m.colName)) ∧
    On E d.other.table .update reads none (randomUpdate d.this fld (.inSelect d.this.pk m.colName m.through m.revName .new d.other.pk))
  | .backwardM2M (.m2m m) =>
    On E m.through .update [m.colName, m.revName] none (randomUpdate d.this fld (.eq d.this.pk .new m.revName)) ∧
    On E m.through .update [m.colName, m.revName] none (randomUpdate d.this fld (.eq d.this.pk .old m.revName)) ∧
    On E m.through .insert [] none (randomUpdate d.this fld (.eq d.this.pk .new m.revName)) ∧
    On E m.through .delete [] none (randomUpdate d.this fld (.eq d.this.pk .old m.revName)) ∧
    On E d.other.table .update reads none (randomUpdate d.this fld (.inSelect d.this.pk m.revName m.through m.colName .new d.other.pk))

/-- What renewing a CacheKeyField rests on. -/
structure KeyTracks (E : Engine) (k : KeyField) : Prop extends Ground E k.relations where
  deps : ∀ d ∈ k.deps, KeyDepTracks E d.dep d.reads k.field
  fks : ∀ c ∈ k.fks, ¬ Managed E k.model.table c
  linkOwn : ∀ d ∈ k.deps, ∀ tbl c k', d.dep.m2mTable = some (tbl, c, k') → ¬ Managed E tbl c
  random : ∀ tr ∈ E.triggers, ∀ u, Action.update u ∈ tr.actions → u.table = k.model.table → u.col = k.field → u.expr = .random

/-- A WHERE clause whose outcome for a row does not change while triggers run. -/
def StableKey (k : KeyField) (ch : Change) : Key → Prop
  | .eq c _ _ => c = k.model.pk ∨ c ∈ k.fks
  | .inSelect c sel tbl wk _ _ => c = k.model.pk ∧ ch.table ≠ tbl ∧ ∃ d ∈ k.deps, d.dep.m2mTable = some (tbl, sel, wk)

/-- The item is an action that will renew the key of row `r`. -/
def PendAct (k : KeyField) (db : Db) (r : Row) : Item → Prop
  | .act _ ch (.update u) => u.table = k.model.table ∧ u.col = k.field ∧ u.guards = [] ∧ StableKey k ch u.key ∧
      u.key.matches ch db r = true
  | _ => False

section
variable {E : Engine} {k : KeyField} {fr : Frame} {t : TableName} {db db' : Db} {x : Option (Event × Row × Row)}

theorem pendAct_random {fr : Frame} {ch : Change} {m : Model} {key : Key} {r : Row} (hm : m = k.model) (hs : StableKey k ch key)
    (h : key.matches ch db r = true) : PendAct k db r (.act fr ch (randomUpdate m k.field key)) :=
  ⟨by rw [hm], rfl, rfl, hs, h⟩

/-- The write queues an action that renews the key of every row it concerns. -/
theorem concerns_renews (hT : KeyTracks E k) (h : WriteOk E k.relations fr t db db' x) {d : DepRead} (hd : d ∈ k.deps) {ch : Change}
    (hch : ch ∈ effectChange t x) {r : Row} (hc : d.Concerns db' ch r) :
    ∃ it ∈ newActs E fr t x, PendAct k db' r it := by
  cases x with
  | none => simp [effectChange] at hch
  | some p =>
  obtain ⟨ev, o, n⟩ := p
  simp only [effectChange, List.mem_singleton] at hch
  subst hch
  have htr := hT.deps d hd
  have hth : d.dep.this = k.model := hT.this d hd
  have hpk : (d.dep.other.table, d.dep.other.pk) ∈ k.relations.pks :=
    List.mem_cons_of_mem _ (List.mem_map.2 ⟨d, hd, rfl⟩)
  have flip : ∀ {a b : Val}, Val.sqlEq a b = true → Val.sqlEq b a = true := by
    intro a b hab
    rw [Val.sqlEq_iff] at hab ⊢
    exact ⟨hab.1.symm, fun h0 => hab.2 (hab.1.trans h0)⟩
  -- relations whose rows carry this model's key in a column
  have byCol : ∀ (tbl : TableName) (ctf : Option (Col × Nat)) (c : Col) (w : List Col),
      On E tbl .update w ctf (randomUpdate d.dep.this k.field (.eq d.dep.this.pk .new c)) →
      On E tbl .update w ctf (randomUpdate d.dep.this k.field (.eq d.dep.this.pk .old c)) →
      On E tbl .insert [] ctf (randomUpdate d.dep.this k.field (.eq d.dep.this.pk .new c)) →
      On E tbl .delete [] ctf (randomUpdate d.dep.this k.field (.eq d.dep.this.pk .old c)) → t = tbl →
      (∃ l ∈ Change.versions ⟨t, ev, o, n⟩, Val.sqlEq (l c) (r d.dep.this.pk) = true ∧
        ∀ p, ctf = some p → hasCt p.1 p.2 l = true) →
      (ev = .update → changedCols w o n = true) → ∃ it ∈ newActs E fr t (some (ev, o, n)), PendAct k db' r it := by
    rintro tbl ctf c w t1 t2 t3 t4 rfl ⟨l, hl, hlc, hlct⟩ hup
    have hlc := flip hlc
    have hst : ∀ s, StableKey k ⟨t, ev, o, n⟩ (.eq d.dep.this.pk s c) := fun s => .inl (by rw [hth])
    cases ev with
    | insert =>
      simp only [Change.versions, List.mem_singleton] at hl
      subst hl
      obtain ⟨fr', hit⟩ := h.fire rfl t3 (by simp) (fun p hp => hlct p hp)
      exact ⟨_, hit, pendAct_random hth (hst _) hlc⟩
    | delete =>
      simp only [Change.versions, List.mem_singleton] at hl
      subst hl
      obtain ⟨fr', hit⟩ := h.fire rfl t4 (by simp) (fun p hp => hlct p hp)
      exact ⟨_, hit, pendAct_random hth (hst _) hlc⟩
    | update =>
      simp only [Change.versions, List.mem_cons, List.not_mem_nil, or_false] at hl
      rcases hl with rfl | rfl
      · obtain ⟨fr', hit⟩ := h.fire rfl t2 (fun _ => hup rfl) (fun p hp => .inl (hlct p hp))
        exact ⟨_, hit, pendAct_random hth (hst _) hlc⟩
      · obtain ⟨fr', hit⟩ := h.fire rfl t1 (fun _ => hup rfl) (fun p hp => .inr (hlct p hp))
        exact ⟨_, hit, pendAct_random hth (hst _) hlc⟩
  have other : ∀ tbl c k', d.dep.m2mTable = some (tbl, c, k') →
      On E d.dep.other.table .update d.reads none
        (randomUpdate d.dep.this k.field (.inSelect d.dep.this.pk c tbl k' .new d.dep.other.pk)) →
      t = d.dep.other.table →
      (∃ y ∈ Change.versions ⟨t, ev, o, n⟩, ∃ l ∈ db'.rows tbl, Val.sqlEq (l c) (r d.dep.this.pk) = true ∧
        Val.sqlEq (l k') (y d.dep.other.pk) = true) →
      (ev = .update → ∃ c ∈ d.reads, o c ≠ n c) → ∃ it ∈ newActs E fr t (some (ev, o, n)), PendAct k db' r it := by
    rintro tbl c k' hm t5 ht ⟨y, hy, l, hl, h1, h2⟩ hup
    have hne := hT.through d hd _ _ _ hm
    have hl0 : l ∈ db.rows tbl := by rw [← h.other tbl (by rw [ht]; exact hne)]; exact hl
    have h2' := flip h2
    cases ev with
    | insert =>
      simp only [Change.versions, List.mem_singleton] at hy
      subst hy
      exact absurd h2' (h.insLink _ _ rfl d hd ht.symm _ _ _ hm l hl0)
    | delete =>
      simp only [Change.versions, List.mem_singleton] at hy
      subst hy
      exact absurd h2' (h.delLink _ _ rfl d hd ht.symm _ _ _ hm l hl0)
    | update =>
      have hk := h.keep o n rfl _ hpk ht.symm
      simp only at hk
      rw [← ht] at t5 hne
      obtain ⟨fr', hit⟩ := h.fire rfl t5 (fun _ => changedCols_iff.2 (hup rfl)) (CtOk.none _)
      refine ⟨_, hit, pendAct_random hth ⟨by rw [hth], fun h0 => hne h0.symm, d, hd, hm⟩ ?_⟩
      simp only [Key.matches, List.any_eq_true, Bool.and_eq_true]
      refine ⟨l, hl, ?_, flip h1⟩
      simp only [Change.versions, List.mem_cons, List.not_mem_nil, or_false] at hy
      rcases hy with rfl | rfl
      · show Val.sqlEq (l k') (n d.dep.other.pk) = true
        rw [hk]; exact h2
      · exact h2
  have m2mCase : ∀ tbl c k' (w : List Col), d.dep.m2mTable = some (tbl, c, k') → c ∈ w → k' ∈ w →
      (∃ l ∈ Change.versions ⟨t, ev, o, n⟩, Val.sqlEq (l c) (r d.dep.this.pk) = true) →
      (ev = .update → o c ≠ n c ∨ o k' ≠ n k') →
      (∃ l ∈ Change.versions ⟨t, ev, o, n⟩, Val.sqlEq (l c) (r d.dep.this.pk) = true ∧
        ∀ p, (none : Option (Col × Nat)) = some p → hasCt p.1 p.2 l = true) ∧ (ev = .update → changedCols w o n = true) := by
    rintro tbl c k' w hm hw1 hw2 ⟨l, hl, hlc⟩ hup
    refine ⟨⟨l, hl, hlc, by simp⟩, fun he => ?_⟩
    rcases hup he with h1 | h1
    · exact changedCols_iff.2 ⟨c, hw1, h1⟩
    · exact changedCols_iff.2 ⟨k', hw2, h1⟩
  rcases hf : d.dep.rel with f | f | (m | g) | (m | g)
  · simp only [KeyDepTracks, hf] at htr
    obtain ⟨t1, t2, t3⟩ := htr
    simp only [DepRead.Concerns, Dep.otherTable, Dep.relatedTo, Dep.relCols, Dep.m2mTable, hf, List.nil_append, reduceCtorEq,
      false_and, exists_false, or_false] at hc
    obtain ⟨ht, ⟨y, hy, hyr⟩, hup⟩ := hc
    have hst : ∀ s c, StableKey k ⟨t, ev, o, n⟩ (.eq f.column s c) :=
      fun s c => .inr (List.mem_flatMap.2 ⟨d, hd, by simp [Dep.ownKeys, hf]⟩)
    rw [← ht] at t1 t2 t3 hpk
    cases ev with
    | insert =>
      simp only [Change.versions, List.mem_singleton] at hy
      subst hy
      obtain ⟨fr', hit⟩ := h.fire rfl t2 (by simp) (CtOk.none _)
      exact ⟨_, hit, pendAct_random hth (hst _ _) hyr⟩
    | delete =>
      simp only [Change.versions, List.mem_singleton] at hy
      subst hy
      obtain ⟨fr', hit⟩ := h.fire rfl t3 (by simp) (CtOk.none _)
      exact ⟨_, hit, pendAct_random hth (hst _ _) hyr⟩
    | update =>
      have hk := h.keep o n rfl _ hpk rfl
      simp only at hk
      obtain ⟨fr', hit⟩ := h.fire rfl t1 (fun _ => changedCols_iff.2 (hup rfl)) (CtOk.none _)
      refine ⟨_, hit, pendAct_random hth (hst _ _) ?_⟩
      simp only [Change.versions, List.mem_cons, List.not_mem_nil, or_false] at hy
      rcases hy with rfl | rfl
      · show Val.sqlEq (r f.column) (n d.dep.other.pk) = true
        rw [hk]; exact hyr
      · exact hyr
  · simp only [KeyDepTracks, hf] at htr
    obtain ⟨t1, t2, t3, t4⟩ := htr
    simp only [DepRead.Concerns, Dep.otherTable, Dep.relatedTo, Dep.relCols, Dep.m2mTable, hf, reduceCtorEq,
      false_and, exists_false, or_false] at hc
    obtain ⟨ht, ⟨y, hy, hyr⟩, hup⟩ := hc
    exact byCol _ none f.column _ t1 t2 t3 t4 ht ⟨y, hy, hyr, by simp⟩ (fun he => changedCols_iff.2 (hup he))
  · simp only [KeyDepTracks, hf] at htr
    obtain ⟨t1, t2, t3, t4, t5⟩ := htr
    simp only [DepRead.Concerns, Dep.otherTable, Dep.relatedTo, Dep.relCols, hf, List.nil_append] at hc
    rcases hc with ⟨h1, h2, h3⟩ | ⟨tbl, c, k', h1, h2, h3, h4⟩
    · exact other m.through m.colName m.revName (by simp [Dep.m2mTable, hf]) t5 h1 h2 h3
    · have h0 := h1
      simp only [Dep.m2mTable, hf, Option.some.injEq, Prod.mk.injEq] at h1
      obtain ⟨rfl, rfl, rfl⟩ := h1
      obtain ⟨h5, h6⟩ := m2mCase _ _ _ [m.colName, m.revName] h0 (by simp) (by simp) h3 h4
      exact byCol _ none _ _ t1 t2 t3 t4 h2 h5 h6
  · simp only [KeyDepTracks, hf] at htr
    obtain ⟨t1, t2, t3, t4⟩ := htr
    simp only [DepRead.Concerns, Dep.otherTable, Dep.relatedTo, Dep.relCols, Dep.m2mTable, hf, reduceCtorEq,
      false_and, exists_false, or_false] at hc
    obtain ⟨ht, ⟨y, hy, hy1, hy2⟩, hup⟩ := hc
    exact byCol _ _ _ _ t1 t2 t3 t4 ht ⟨y, hy, hy2, by intro p hp; simp only [Option.some.injEq] at hp; subst hp; exact hy1⟩
      (fun he => changedCols_iff.2 (hup he))
  · simp only [KeyDepTracks, hf] at htr
    obtain ⟨t1, t2, t3, t4, t5⟩ := htr
    simp only [DepRead.Concerns, Dep.otherTable, Dep.relatedTo, Dep.relCols, hf, List.nil_append] at hc
    rcases hc with ⟨h1, h2, h3⟩ | ⟨tbl, c, k', h1, h2, h3, h4⟩
    · exact other m.through m.revName m.colName (by simp [Dep.m2mTable, hf]) t5 h1 h2 h3
    · have h0 := h1
      simp only [Dep.m2mTable, hf, Option.some.injEq, Prod.mk.injEq] at h1
      obtain ⟨rfl, rfl, rfl⟩ := h1
      obtain ⟨h5, h6⟩ := m2mCase _ _ _ [m.colName, m.revName] h0 (by simp) (by simp) h3 h4
      exact byCol _ none _ _ t1 t2 t3 t4 h2 h5 h6
  · simp [KeyDepTracks, hf] at htr
end

end Denorm
