import Verif.Lemmas.FlushRun
import Verif.Spec.FlushRun
/-!
# States visited and instances saved by flush
-/
namespace Denorm

section
variable {A : App} {D : List Denorm} {om : OrmModel} {cb : Callback} {db db' : Db}

theorem good_during {ms : List Mark} {x : Db} (h : A.During ms db x) (hG : Good A D om cb db) : Good A D om cb x := by
  induction h with
  | now => exact hG
  | saved h => exact (good_saveObject hG h).1
  | next h _ ih => exact ih (good_flushOne hG h)

theorem good_visits {x : Db} (h : A.Visits db x) (hG : Good A D om cb db) : Good A D om cb x := by
  induction h with
  | inPass h => exact good_during h hG
  | next _ h _ ih => exact ih (good_flushList _ hG h)

/-! ## Markers without a target -/

theorem contentObject_none {m : Mark} (h : A.NoTarget db m) : A.contentObject db m = .ok none := by
  obtain ⟨om, h1, h2⟩ := h
  have : (db.rows om.model.table).find? (isRowOf om.model m.oid) = none := by
    rw [List.find?_eq_none]
    intro r hr hw
    obtain ⟨h3, h4⟩ := Val.sqlEq_iff.1 hw
    rcases h2 with h2 | h2
    · exact h4 (h3.trans h2)
    · exact h2 r hr h3
  simp [App.contentObject, h1, this]

theorem contentObject_some {m : Mark} (h : A.HasTarget db m) : ∃ p, A.contentObject db m = .ok (some p) := by
  obtain ⟨om, h1, r, hr, hk, hn⟩ := h
  cases hf : (db.rows om.model.table).find? (isRowOf om.model m.oid) with
  | none =>
    have := List.find?_eq_none.1 hf r hr
    exact absurd (Val.sqlEq_iff.2 ⟨hk, hk ▸ hn⟩) this
  | some r' => exact ⟨(om, r'), by simp [App.contentObject, h1, hf]⟩

theorem flushOne_noTarget {m : Mark} (h : A.NoTarget db m) : A.flushOne m db = .ok (db.dropMarks m) := by
  simp [App.flushOne, App.saveObject, contentObject_none h]

theorem hasTarget_of_some {m : Mark} {p : OrmModel × Row} (h : A.contentObject db m = .ok (some p)) : A.HasTarget db m := by
  simp only [App.contentObject] at h
  split at h
  · simp at h
  · rename_i om hom
    split at h
    · simp at h
    · rename_i r hr
      obtain ⟨h1, h2⟩ := Val.sqlEq_iff.1 (List.find?_some (p := isRowOf om.model m.oid) hr)
      exact ⟨om, hom, r, List.mem_of_find?_eq_some hr, h1, h1 ▸ h2⟩

/-! ## Flushing keeps the set of instances -/

theorem saveObject_cases (hS : KeysSafe A) (hu : KeysUnique A db) {m : Mark} (h : A.saveObject m db = .ok db') :
    (A.contentObject db m = .ok none ∧ db' = db) ∨
    ∃ om ∈ A.models, ∃ r mem, A.contentObject db m = .ok (some (om, r)) ∧
      A.models.find? (fun om => om.model.ct == m.ct) = some om ∧ r om.model.pk = m.oid ∧ Saved A om r mem db db' := by
  simp only [App.saveObject] at h
  cases hc : A.contentObject db m with
  | error e => rw [hc] at h; simp at h
  | ok o =>
    rw [hc] at h
    cases o with
    | none =>
      simp only [Except.ok.injEq] at h
      exact .inl ⟨rfl, h.symm⟩
    | some p =>
      obtain ⟨om, r⟩ := p
      simp only at h
      have hc' := hc
      simp only [App.contentObject] at hc
      cases hfind : A.models.find? (fun om => om.model.ct == m.ct) with
      | none => rw [hfind] at hc; simp at hc
      | some om' =>
        rw [hfind] at hc
        simp only at hc
        cases hrow : (db.rows om'.model.table).find? (isRowOf om'.model m.oid) with
        | none => rw [hrow] at hc; simp at hc
        | some r' =>
          rw [hrow] at hc
          simp only [Except.ok.injEq, Option.some.injEq, Prod.mk.injEq] at hc
          obtain ⟨rfl, rfl⟩ := hc
          have hom : om' ∈ A.models := List.mem_of_find?_eq_some hfind
          cases hs : A.save om' r' db with
          | error e => rw [hs] at h; simp at h
          | ok p =>
            rw [hs] at h
            simp only [Except.ok.injEq] at h
            subst h
            obtain ⟨mem, _, hSv⟩ := saved_of_save hu hom (hS.kept om' hom om' hom rfl) hrow hs
            exact .inr ⟨om', hom, r', mem, rfl, rfl, (find_again hrow).2, hSv⟩

/-- The same instances exist. -/
def SameKeys (A : App) (db db' : Db) : Prop :=
  ∀ om ∈ A.models, (db'.rows om.model.table).map (fun r => r om.model.pk) = (db.rows om.model.table).map fun r => r om.model.pk

theorem sameKeys_target {A : App} {db db' : Db} (h : SameKeys A db db') (m : Mark) : A.HasTarget db' m ↔ A.HasTarget db m := by
  have key : ∀ om ∈ A.models, ∀ k, (∃ r ∈ db'.rows om.model.table, r om.model.pk = k) ↔ ∃ r ∈ db.rows om.model.table, r om.model.pk = k := by
    intro om hom k
    have := h om hom
    constructor
    · rintro ⟨r, hr, hk⟩
      have : k ∈ (db.rows om.model.table).map fun r => r om.model.pk := by rw [← this]; exact List.mem_map.2 ⟨r, hr, hk⟩
      exact List.mem_map.1 this
    · rintro ⟨r, hr, hk⟩
      have : k ∈ (db'.rows om.model.table).map fun r => r om.model.pk := by rw [this]; exact List.mem_map.2 ⟨r, hr, hk⟩
      exact List.mem_map.1 this
  constructor
  · rintro ⟨om, h1, r, hr, hk, hn⟩
    obtain ⟨r', hr', hk'⟩ := (key om (List.mem_of_find?_eq_some h1) m.oid).1 ⟨r, hr, hk⟩
    exact ⟨om, h1, r', hr', hk', hn⟩
  · rintro ⟨om, h1, r, hr, hk, hn⟩
    obtain ⟨r', hr', hk'⟩ := (key om (List.mem_of_find?_eq_some h1) m.oid).2 ⟨r, hr, hk⟩
    exact ⟨om, h1, r', hr', hk', hn⟩

theorem sameKeys_saveObject (hS : KeysSafe A) (hu : KeysUnique A db) {m : Mark} (h : A.saveObject m db = .ok db') :
    SameKeys A db db' ∧ KeysUnique A db' := by
  rcases saveObject_cases hS hu h with ⟨_, rfl⟩ | ⟨om, hom, r, mem, _, _, _, hSv⟩
  · exact ⟨fun _ _ => rfl, hu⟩
  · refine ⟨fun om' hom' => ?_, keysUnique_saved hS hom hu hSv⟩
    exact ((hSv.rows om'.model.table).map_eq fun a b hab => (saved_pk hS hom hom' hab).symm).symm

theorem sameKeys_flushOne (hS : KeysSafe A) (hu : KeysUnique A db) {m : Mark} (h : A.flushOne m db = .ok db') :
    SameKeys A db db' ∧ KeysUnique A db' := by
  simp only [App.flushOne] at h
  cases hs : A.saveObject m db with
  | error e => rw [hs] at h; simp at h
  | ok db1 =>
    rw [hs] at h
    simp only [Except.ok.injEq] at h
    subst h
    have := sameKeys_saveObject hS hu hs
    exact this

theorem sameKeys_flushList (hS : KeysSafe A) : ∀ (ms : List Mark) {db db' : Db}, KeysUnique A db → A.flushList ms db = .ok db' →
    SameKeys A db db' ∧ KeysUnique A db'
  | [], db, db', hu, h => by
    simp only [App.flushList, Except.ok.injEq] at h
    exact h ▸ ⟨fun _ _ => rfl, hu⟩
  | m :: ms, db, db', hu, h => by
    simp only [App.flushList] at h
    cases hs : A.flushOne m db with
    | error e => rw [hs] at h; simp at h
    | ok db1 =>
      rw [hs] at h
      obtain ⟨h1, h2⟩ := sameKeys_flushOne hS hu hs
      obtain ⟨h3, h4⟩ := sameKeys_flushList hS ms h2 h
      exact ⟨fun om hom => (h3 om hom).trans (h1 om hom), h4⟩

/-! ## save() calls -/

theorem savedIn_sublist : ∀ (ms : List Mark) (db : Db), (A.savedIn ms db).Sublist ms
  | [], _ => .slnil
  | m :: ms, db => by
    simp only [App.savedIn]
    have hrest : (match A.flushOne m db with
      | .ok db' => A.savedIn ms db'
      | .error _ => []).Sublist ms := by
      cases A.flushOne m db with
      | ok db' => exact savedIn_sublist ms db'
      | error e => exact List.nil_sublist _
    have hhead : (match A.contentObject db m with
      | .ok (some _) => [m]
      | _ => []).Sublist [m] := by
      split
      · exact List.Sublist.refl _
      · exact List.nil_sublist _
    exact hhead.append hrest

open Classical in
/-- If no error occurs, the inner loop saves exactly the markers that have a target. -/
theorem savedIn_eq (hS : KeysSafe A) : ∀ (ms : List Mark) {db db' : Db}, KeysUnique A db → A.flushList ms db = .ok db' →
    A.savedIn ms db = ms.filter fun m => decide (A.HasTarget db m)
  | [], _, _, _, _ => rfl
  | m :: ms, db, db', hu, h => by
    simp only [App.flushList] at h
    cases hs : A.flushOne m db with
    | error e => rw [hs] at h; simp at h
    | ok db1 =>
      rw [hs] at h
      obtain ⟨h1, h2⟩ := sameKeys_flushOne hS hu hs
      have ih := savedIn_eq hS ms h2 h
      simp only [App.savedIn, hs, ih, List.filter_cons]
      have hf : (ms.filter fun m => decide (A.HasTarget db1 m)) = ms.filter fun m => decide (A.HasTarget db m) := by
        congr 1
        funext m'
        rw [decide_eq_decide]
        exact sameKeys_target h1 m'
      rw [hf]
      by_cases ht : A.HasTarget db m
      · obtain ⟨p, hp⟩ := contentObject_some ht
        simp [hp, ht]
      · have : ∀ p, A.contentObject db m ≠ .ok (some p) := fun p hp => ht (hasTarget_of_some hp)
        cases hc : A.contentObject db m with
        | error e => simp [ht]
        | ok o =>
          cases o with
          | none => simp [ht]
          | some p => exact absurd hc (this p)

/-- Only instances that exist are saved. -/
theorem savedIn_target (hS : KeysSafe A) : ∀ (ms : List Mark) {db : Db}, KeysUnique A db → ∀ {m : Mark}, m ∈ A.savedIn ms db →
    A.HasTarget db m
  | [], _, _, _, h => by simp [App.savedIn] at h
  | m' :: ms, db, hu, m, h => by
    simp only [App.savedIn] at h
    rcases List.mem_append.1 h with h | h
    · split at h
      · rename_i p hp
        simp only [List.mem_singleton] at h
        subst h
        exact hasTarget_of_some hp
      · simp at h
    · cases hs : A.flushOne m' db with
      | error e => rw [hs] at h; simp at h
      | ok db1 =>
        rw [hs] at h
        obtain ⟨h1, h2⟩ := sameKeys_flushOne hS hu hs
        exact (sameKeys_target h1 m).1 (savedIn_target hS ms h2 h)

/-- Flushing changes only the columns in `Touched`. -/
theorem flushOne_same (hS : KeysSafe A) (hu : KeysUnique A db) {m : Mark} (h : A.flushOne m db = .ok db') :
    SameOutside (Touched A) db db' := by
  simp only [App.flushOne] at h
  cases hs : A.saveObject m db with
  | error e => rw [hs] at h; simp at h
  | ok db1 =>
    rw [hs] at h
    simp only [Except.ok.injEq] at h
    subst h
    rcases saveObject_cases hS hu hs with ⟨_, rfl⟩ | ⟨om, hom, r, mem, _, _, _, hSv⟩
    · exact SameOutside.refl _ _
    · intro t
      exact (hSv.rows t).imp fun a _ b _ hab c hc => untouched_rel hom hc hab

theorem flushList_same (hS : KeysSafe A) : ∀ (ms : List Mark) {db db' : Db}, KeysUnique A db → A.flushList ms db = .ok db' →
    SameOutside (Touched A) db db'
  | [], db, db', _, h => by
    simp only [App.flushList, Except.ok.injEq] at h
    exact h ▸ SameOutside.refl _ _
  | m :: ms, db, db', hu, h => by
    simp only [App.flushList] at h
    cases hs : A.flushOne m db with
    | error e => rw [hs] at h; simp at h
    | ok db1 =>
      rw [hs] at h
      exact (flushOne_same hS hu hs).trans (flushList_same hS ms (sameKeys_flushOne hS hu hs).2 h)

theorem flush_same (hS : KeysSafe A) : ∀ (n : Nat) {db db' : Db}, KeysUnique A db → A.flush n db = .ok (some db') →
    SameOutside (Touched A) db db'
  | n, db, db', hu, h => by
    unfold App.flush at h
    split at h
    · simp only [Except.ok.injEq, Option.some.injEq] at h
      exact h ▸ SameOutside.refl _ _
    · cases n with
      | zero => simp at h
      | succ n =>
        simp only at h
        cases hs : A.pass db with
        | error e => rw [hs] at h; simp at h
        | ok db1 =>
          rw [hs] at h
          exact (flushList_same hS _ hu hs).trans (flush_same hS n (sameKeys_flushList hS _ hu hs).2 h)

end
end Denorm
