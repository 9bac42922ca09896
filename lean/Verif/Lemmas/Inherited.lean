import Verif.Spec.Inherited
import Verif.Lemmas.TriggerSet
/-!
# Tables without triggers
-/
namespace Denorm

section
variable {E : Engine} {D : List Denorm} {t : TableName}

theorem fired_blind (h : ∀ tr ∈ E.triggers, tr.table ≠ t) {fr : Frame} {ch : Change} (hch : ch.table = t) : E.fired fr ch = [] := by
  have : E.triggers.filter (E.enters fr ch) = [] := by
    rw [List.filter_eq_nil_iff]
    intro tr htr
    simp [Engine.enters, hch, h tr htr]
  simp [Engine.fired, this]

theorem applyOps_only (E : Engine) (t : TableName) : ∀ (ops : List RowOp) (db : Db), (∀ ch ∈ (applyOps E t ops db).2, ch.table = t) ∧
    (applyOps E t ops db).1.dirty = db.dirty ∧ ∀ t', t' ≠ t → (applyOps E t ops db).1.rows t' = db.rows t'
  | [], db => ⟨by simp [applyOps], rfl, fun _ _ => rfl⟩
  | op :: ops, db => by
    obtain ⟨h1, h2, h3⟩ := applyOps_only E t ops (applyOp E t op db).1
    simp only [applyOps]
    refine ⟨fun ch hch => ?_, h2.trans (applyOp_dirty E t op db), fun t' ht => (h3 t' ht).trans (applyOp_rows_other E op db ht)⟩
    rcases List.mem_append.1 hch with hch | hch
    · obtain ⟨x, _, hc, _⟩ := applyOp_effect E t op db
      rw [hc] at hch
      rcases x with _ | ⟨e, o, n⟩
      · simp [effectChange] at hch
      · simp only [effectChange, List.mem_singleton] at hch
        subst hch
        rfl
    · exact h1 ch hch

theorem reach_blind (h : ∀ tr ∈ E.triggers, tr.table ≠ t) {W W' : List Item} {db db' : Db} (hr : E.Reach W db W' db')
    (hW : ∀ it ∈ W, ∃ fr ops, it = .write fr t ops) : db'.dirty = db.dirty ∧ ∀ t', t' ≠ t → db'.rows t' = db.rows t' := by
  induction hr with
  | refl => exact ⟨rfl, fun _ _ => rfl⟩
  | @step it W new db db1 W2 db2 hs hr ih =>
    obtain ⟨fr, ops, rfl⟩ := hW it (List.mem_cons_self ..)
    obtain ⟨h1, h2, h3⟩ := applyOps_only E t ops db
    simp only [Engine.step, Except.ok.injEq, Prod.mk.injEq] at hs
    obtain ⟨rfl, rfl⟩ := hs
    have hnil : (applyOps E t ops db).2.flatMap (E.fired fr) = [] := by
      rw [List.flatMap_eq_nil_iff]
      exact fun ch hch => fired_blind h (h1 ch hch)
    rw [hnil] at ih
    obtain ⟨i1, i2⟩ := ih fun it hit => hW it (List.mem_cons_of_mem _ hit)
    exact ⟨i1.trans h2, fun t' ht => (i2 t' ht).trans (h3 t' ht)⟩

/-- A statement on a table without triggers writes nothing else. -/
theorem exec_blind (h : ∀ tr ∈ E.triggers, tr.table ≠ t) {s : Stmt} (hs : s.table = t) {fuel : Nat} {db db' : Db} (he : E.exec fuel s db = .ok db') :
    db'.dirty = db.dirty ∧ ∀ t', t' ≠ t → db'.rows t' = db.rows t' := by
  refine reach_blind h (Engine.reach_of_drain _ _ _ _ he) fun it hit => ?_
  obtain ⟨l, rfl, -⟩ := mem_writes hit
  exact ⟨_, l, by rw [hs]⟩

theorem installed_blind (hE : Installed E D) (hno : ∀ dn ∈ D, ∀ g ∈ dn.triggers, g.table ≠ t) : ∀ tr ∈ E.triggers, tr.table ≠ t := by
  intro tr htr
  rw [hE] at htr
  obtain ⟨g, hg, -, h, -⟩ := installed_head htr
  obtain ⟨dn, hdn, hg⟩ := List.mem_flatMap.1 hg
  rw [h]
  exact hno dn hdn g hg

end

section
variable {v : Inheriting} {db : Db}

theorem filter_key (v : Inheriting) (x : Val) : ∀ {l : List Row}, l.Pairwise (fun p q => p v.parent.pk ≠ q v.parent.pk) →
    l.filter (fun p => Val.sqlEq (p v.parent.pk) x) = (l.find? fun p => Val.sqlEq (p v.parent.pk) x).toList
  | [], _ => rfl
  | p :: l, h => by
    obtain ⟨h1, h2⟩ := List.pairwise_cons.1 h
    cases hp : Val.sqlEq (p v.parent.pk) x with
    | false => simp [hp, filter_key v x h2]
    | true =>
      have : l.filter (fun p => Val.sqlEq (p v.parent.pk) x) = [] := by
        rw [List.filter_eq_nil_iff]
        intro q hq hqx
        exact h1 q hq ((Val.sqlEq_iff.1 hp).1.trans (Val.sqlEq_iff.1 hqx).1.symm)
      simp [hp, this]

/-- Following the parent link as a relation gives the inherited fields. -/
theorem withParent_value (h : v.ParentKeys db) (r : Row) : v.withParent.value db r = v.value db r := by
  simp only [Inheriting.value, Callback.value, Inheriting.withParent, List.map_cons, List.map_nil, relatedRows, Inheriting.parentRow, filter_key v _ h]
  cases (db.rows v.parent.table).find? fun p => Val.sqlEq (p v.parent.pk) (r v.link.column) <;> rfl

theorem withParent_staleMarked (h : v.ParentKeys db) : StaleMarked v.withParent db ↔ v.StaleMarked db := by
  unfold StaleMarked Inheriting.StaleMarked Callback.Fresh Inheriting.Fresh
  simp only [withParent_value h]
  exact Iff.rfl

end
end Denorm
