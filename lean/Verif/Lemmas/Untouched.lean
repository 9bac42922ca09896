import Verif.Spec.Untouched
import Verif.Lemmas.FlushRun
import Verif.Lemmas.Transparent
import Verif.Lemmas.Hooks
import Verif.Lemmas.NoError
import Verif.Props.Conditions
/-!
# What flush() leaves alone: lemmas
-/
namespace Denorm

section
variable {A : App} {D : List Denorm} {db db' : Db}

theorem Reached.managed {E : Engine} {om : OrmModel} {t : TableName} {c : Col} (h : Reached E om t c) : Managed E t c := by
  cases h with
  | direct h1 _ _ _ h2 => exact ⟨_, h1, _, h2, rfl, rfl⟩
  | next _ h1 _ _ _ h2 => exact ⟨_, h1, _, h2, rfl, rfl⟩

/-- Row by row the same data, outside denormalized columns. -/
def KeptData (D : List Denorm) (db db' : Db) : Prop := ∀ t, Pw (Row.Agrees (Denormalized D t)) (db.rows t) (db'.rows t)

theorem KeptData.refl (db : Db) : KeptData D db db := fun _ => Pw.refl (fun r => Row.Agrees.refl r) _

theorem KeptData.trans {db1 db2 db3 : Db} (h : KeptData D db1 db2) (h' : KeptData D db2 db3) : KeptData D db1 db3 := fun t =>
  (h t).trans (fun _ _ _ hab hbc c hc => (hab c hc).trans (hbc c hc)) (h' t)

theorem KeptData.unique (hO : OnlyDenorms A D) (h : KeptData D db db') (hu : KeysUnique A db) : KeysUnique A db' := by
  intro om hom
  have hk : ∀ a b, Row.Agrees (Denormalized D om.model.table) a b → a om.model.pk = b om.model.pk := fun a b hab => hab _ (hO.keys om hom)
  have e : ((db.rows om.model.table).map fun r => r om.model.pk) = (db'.rows om.model.table).map fun r => r om.model.pk :=
    (h om.model.table).map_eq hk
  refine ⟨e ▸ (hu om hom).1, fun r hr => ?_⟩
  obtain ⟨a, ha, hab⟩ := (h om.model.table).right hr
  exact hk a r hab ▸ (hu om hom).2 a ha

theorem kept_save (hE : Installed A.engine D) (hthis : ∀ dn ∈ D, ∀ d ∈ dn.deps, d.this = dn.model) (hO : OnlyDenorms A D) (hu : KeysUnique A db)
    {om : OrmModel} (hom : om ∈ A.models) {k : Val} {r : Row} (hr : (db.rows om.model.table).find? (isRowOf om.model k) = some r) {p : Db × Row}
    (h : A.save om r db = .ok p) : KeptData D db p.1 := by
  have hpk : om.model.pk ∉ om.cols := fun hc => by
    obtain ⟨f, hf, e⟩ := List.mem_map.1 hc
    exact hO.saved om hom f hf e
  obtain ⟨mem, _, hS⟩ := saved_of_save hu hom hpk hr h
  intro t
  refine (hS.rows t).imp fun a _ b _ hab c hc => (hab.plain c (fun hr => ?_) fun ht hd => ?_).symm
  · obtain ⟨dn, h1, h2, h3, _⟩ := managed_maintained hE hthis hr.managed
    exact hc ⟨dn, h1, h2, h3⟩
  · obtain ⟨f, hf, e⟩ := List.mem_map.1 hd
    obtain ⟨hf, hk⟩ := List.mem_filter.1 hf
    subst ht e
    exact hc (hO.computed om hom f hf hk)

theorem kept_flushOneWith (hE : Installed A.engine D) (hthis : ∀ dn ∈ D, ∀ d ∈ dn.deps, d.this = dn.model) (hO : OnlyDenorms A D)
    (hu : KeysUnique A db) (H : Hooks) (m : Mark) : KeptData D db (A.flushOneWith H m db).1 := by
  unfold App.flushOneWith
  cases hc : A.contentObject db m with
  | error e => exact KeptData.refl db
  | ok o =>
    cases o with
    | none => exact KeptData.refl db
    | some p =>
      obtain ⟨om, r⟩ := p
      simp only
      split
      · split
        · exact KeptData.refl db
        · cases hs : A.save om r db with
          | error e => exact KeptData.refl db
          | ok q =>
            obtain ⟨db1, mem⟩ := q
            have hk : KeptData D db db1 := by
              simp only [App.contentObject] at hc
              split at hc
              · cases hc
              · rename_i om' hom'
                split at hc
                · cases hc
                · rename_i r' hr'
                  simp only [Except.ok.injEq, Option.some.injEq, Prod.mk.injEq] at hc
                  obtain ⟨rfl, rfl⟩ := hc
                  exact kept_save (p := (db1, mem)) hE hthis hO hu (List.mem_of_find?_eq_some hom') hr' hs
            simp only
            split
            · exact hk
            · exact hk
      · exact KeptData.refl db

theorem kept_flushListWith (hE : Installed A.engine D) (hthis : ∀ dn ∈ D, ∀ d ∈ dn.deps, d.this = dn.model) (hO : OnlyDenorms A D) (H : Hooks) :
    ∀ (ms : List Mark) {db : Db}, KeysUnique A db → KeptData D db (A.flushListWith H ms db).1
  | [], db, _ => KeptData.refl db
  | m :: ms, db, hu => by
    have h1 := kept_flushOneWith hE hthis hO hu H m
    unfold App.flushListWith
    cases hs : A.flushOneWith H m db with
    | mk db1 b =>
      rw [hs] at h1
      cases b with
      | false => exact h1.trans (kept_flushListWith hE hthis hO H ms (h1.unique hO hu))
      | true => exact h1

theorem kept_flushWith (hE : Installed A.engine D) (hthis : ∀ dn ∈ D, ∀ d ∈ dn.deps, d.this = dn.model) (hO : OnlyDenorms A D) (H : Hooks) :
    ∀ (n : Nat) {db : Db}, KeysUnique A db → KeptData D db (A.flushWith H n db).1
  | n, db, hu => by
    unfold App.flushWith
    split
    · exact KeptData.refl db
    · cases n with
      | zero => exact KeptData.refl db
      | succ n =>
        have h1 := kept_flushListWith hE hthis hO H (A.snapshot db) hu
        simp only
        cases hs : A.flushListWith H (A.snapshot db) db with
        | mk db1 b =>
          rw [hs] at h1
          cases b with
          | false => exact h1.trans (kept_flushWith hE hthis hO H n (h1.unique hO hu))
          | true => exact h1

/-! ## Nothing to do -/

theorem preSaveAll_same {om : OrmModel} {r : Row} (hr : (db.rows om.model.table).find? (isRowOf om.model (r om.model.pk)) = some r) :
    ∀ fs : List SaveField, (∀ f ∈ fs, match f.kind with
      | .callback cb => r f.col = cb.value db r
      | .cacheKey => False
      | _ => True) → preSaveAll A om.model db false fs r = .ok r
  | [], _ => rfl
  | f :: fs, h => by
    have hv : f.preSave A om.model db false r = .ok (r f.col) := by
      have := h f (List.mem_cons_self ..)
      unfold SaveField.preSave
      cases hk : f.kind with
      | plain => rfl
      | callback cb => rw [hk] at this; simp only at this ⊢; rw [this]
      | aggregate =>
        have hr' : List.find? (fun x => Val.sqlEq (x om.model.pk) (r om.model.pk)) (db.rows om.model.table) = some r := hr
        simp [hr']
      | cacheKey => rw [hk] at this; exact this.elim
    have hs : r.set f.col (r f.col) = r := by
      funext c
      simp only [Row.set]
      split
      · rename_i e; rw [e]
      · rfl
    simp only [preSaveAll, hv, hs]
    exact preSaveAll_same hr fs fun g hg => h g (List.mem_cons_of_mem _ hg)

theorem key_inj {m : Model} {l : List Row} (h : (l.map fun r => r m.pk).Nodup) {a b : Row} (ha : a ∈ l) (hb : b ∈ l) (e : a m.pk = b m.pk) : a = b := by
  induction l with
  | nil => simp at ha
  | cons x l ih =>
    simp only [List.map_cons, List.nodup_cons] at h
    rcases List.mem_cons.1 ha with h1 | h1 <;> rcases List.mem_cons.1 hb with h2 | h2
    · rw [h1, h2]
    · exact absurd (List.mem_map.2 ⟨b, h2, by rw [← e, h1]⟩) h.1
    · exact absurd (List.mem_map.2 ⟨a, h1, by rw [e, h2]⟩) h.1
    · exact ih h.2 h1 h2

/-- Saving an up-to-date instance leaves every row of the database as it is and marks nothing. -/
theorem idle_save (hu : KeysUnique A db) (hq : ∀ t, ∀ tr ∈ A.engine.watchers t, ¬ FireAnyway A.engine tr) (hA : AllFresh A db) {om : OrmModel}
    (hom : om ∈ A.models) {k : Val} {r : Row} (hr : (db.rows om.model.table).find? (isRowOf om.model k) = some r)
    (hf : (db.rows om.model.table).length < A.fuel) : ∃ db' mem, A.save om r db = .ok (db', mem) ∧ db'.dirty = db.dirty ∧ db'.rows = db.rows := by
  obtain ⟨hr2, _⟩ := find_again hr
  have hmem : r ∈ db.rows om.model.table := List.mem_of_find?_eq_some hr
  have hp : preSaveAll A om.model db false om.saved r = .ok r := preSaveAll_same hr2 om.saved fun f hf => by
    have := hA om hom f hf
    cases hk : f.kind with
    | callback cb => rw [hk] at this; exact this r hmem
    | cacheKey => rw [hk] at this; exact this
    | plain => trivial
    | aggregate => trivial
  have hany : (db.rows om.model.table).any (isRowOf om.model (r om.model.pk)) = true :=
    List.any_eq_true.2 ⟨r, hmem, List.find?_some (p := isRowOf om.model (r om.model.pk)) hr2⟩
  have hsame : ∀ x ∈ db.rows om.model.table, isRowOf om.model (r om.model.pk) x = true →
      (fun c => if c ∈ om.saved.map SaveField.col then r c else x c) = x := by
    intro x hx hw
    have hk := (Val.sqlEq_iff.1 hw).1
    have : x = r := by
      exact key_inj (hu om hom).1 hx hmem hk
    subst this
    funext c
    split <;> rfl
  have hL : LeavesWatched A.engine om.model.table (isRowOf om.model (r om.model.pk))
      (fun _ x c => if c ∈ om.saved.map SaveField.col then r c else x c) db := fun tr _ x hx hw _ c _ => congrFun (hsame x hx hw) c
  obtain ⟨h1, h2⟩ := C06_no_change_no_effect_partial hL (hq _)
  obtain ⟨db', he⟩ := h2 A.fuel hf
  have ho := h1 A.fuel db' he
  refine ⟨db', r, ?_, ho.dirty, ?_⟩
  · have he' : A.engine.exec A.fuel (saveUpdate om r) db = .ok db' := he
    simp only [App.save, hp, hany, if_true, App.exec, he']
  · funext t
    by_cases ht : t = om.model.table
    · subst ht
      refine List.ext_getElem? fun i => ?_
      cases e : (db.rows om.model.table)[i]? with
      | none =>
        have := List.getElem?_eq_none_iff.1 e
        exact List.getElem?_eq_none_iff.2 (by rw [ho.length]; exact this)
      | some x =>
        have := ho.rows i x e
        split at this
        · rename_i hw
          obtain ⟨_, hx⟩ := this
          rw [hx]
          exact congrArg some (hsame x (List.mem_of_getElem? e) hw)
        · exact this
    · exact ho.other t ht

/-- The markers can be resolved, and statements are allowed as many steps as a table has rows. -/
structure IdleOk (A : App) (db : Db) : Prop where
  unique : KeysUnique A db
  fresh : AllFresh A db
  fuel : ∀ om ∈ A.models, (db.rows om.model.table).length < A.fuel

theorem IdleOk.same (h : IdleOk A db) (e : db'.rows = db.rows) : IdleOk A db' := by
  have hval : ∀ (cb : Callback) (r : Row), cb.value db' r = cb.value db r := by
    intro cb r
    have hrel : ∀ d : Dep, relatedRows d db' r = relatedRows d db r := fun d => by unfold relatedRows; rw [e]
    simp only [Callback.value, hrel]
  refine ⟨fun om hom => by rw [e]; exact h.unique om hom, fun om hom f hf => ?_, fun om hom => by rw [e]; exact h.fuel om hom⟩
  have := h.fresh om hom f hf
  cases hk : f.kind with
  | callback cb =>
    rw [hk] at this
    intro r hr
    rw [e] at hr
    rw [hval]
    exact this r hr
  | cacheKey => rw [hk] at this; exact this
  | plain => trivial
  | aggregate => trivial

theorem idle_flushOne (hI : IdleOk A db) (hq : ∀ t, ∀ tr ∈ A.engine.watchers t, ¬ FireAnyway A.engine tr) {m : Mark}
    (hm : ∃ om ∈ A.models, om.model.ct = m.ct) : ∃ db', A.flushOne m db = .ok db' ∧ db'.rows = db.rows ∧ db'.dirty = db.dirty.filter fun m' => m' ≠ m := by
  cases hf : A.models.find? fun om => om.model.ct == m.ct with
  | none =>
    obtain ⟨om, hom, e⟩ := hm
    have := List.find?_eq_none.1 hf om hom
    simp [e] at this
  | some om =>
    have hom := List.mem_of_find?_eq_some hf
    cases hr : (db.rows om.model.table).find? (isRowOf om.model m.oid) with
    | none => exact ⟨db.dropMarks m, by simp [App.flushOne, App.saveObject, App.contentObject, hf, hr], rfl, rfl⟩
    | some r =>
      obtain ⟨db', mem, h1, h2, h3⟩ := idle_save hI.unique hq hI.fresh hom hr (hI.fuel om hom)
      exact ⟨db'.dropMarks m, by simp [App.flushOne, App.saveObject, App.contentObject, hf, hr, h1], h3, by simp [Db.dropMarks, h2]⟩

theorem idle_flushList (hq : ∀ t, ∀ tr ∈ A.engine.watchers t, ¬ FireAnyway A.engine tr) : ∀ (ms : List Mark) {db : Db}, IdleOk A db →
    (∀ m ∈ ms, ∃ om ∈ A.models, om.model.ct = m.ct) →
    ∃ db', A.flushList ms db = .ok db' ∧ db'.rows = db.rows ∧ db'.dirty = db.dirty.filter fun m' => m' ∉ ms
  | [], db, _, _ => ⟨db, rfl, rfl, (List.filter_eq_self.2 fun x _ => by simp).symm⟩
  | m :: ms, db, hI, hm => by
    obtain ⟨db1, h1, h2, h3⟩ := idle_flushOne hI hq (hm m (List.mem_cons_self ..))
    obtain ⟨db2, h4, h5, h6⟩ := idle_flushList hq ms (hI.same h2) fun m' hm' => hm m' (List.mem_cons_of_mem _ hm')
    refine ⟨db2, by simp only [App.flushList, h1, h4], h5.trans h2, ?_⟩
    rw [h6, h3, List.filter_filter]
    refine List.filter_congr fun x _ => ?_
    simp only [List.mem_cons, not_or, decide_not]
    by_cases e : x = m <;> by_cases e' : x ∈ ms <;> simp [e, e']

end
end Denorm
