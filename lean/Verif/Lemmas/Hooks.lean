import Verif.Code.Hooks
import Verif.Lemmas.Settle
/-!
# flush() with the project's own code
-/
namespace Denorm

section
variable {A : App} {D : List Denorm} {om : OrmModel} {cb : Callback} {H : Hooks} {db db' : Db}

theorem good_flushOneWith (ht : ∀ x om r, om.model = cb.model → H.truth x om r = true) (hG : Good A D om cb db) {m : Mark} {e : Bool}
    (h : A.flushOneWith H m db = (db', e)) : Good A D om cb db' := by
  unfold App.flushOneWith at h
  have hone : ∀ {x : Db}, A.flushOne m db = .ok x → Good A D om cb x := fun h => good_flushOne hG h
  have hsave : ∀ {x : Db}, A.saveObject m db = .ok x → Good A D om cb (x.dropMarks m) := fun hx =>
    hone (by simp only [App.flushOne, hx])
  cases hc : A.contentObject db m with
  | error e => rw [hc] at h; simp only [Prod.mk.injEq] at h; exact h.1 ▸ hG
  | ok o =>
    rw [hc] at h
    cases o with
    | none =>
      simp only [Prod.mk.injEq] at h
      exact h.1 ▸ hsave (by simp only [App.saveObject, hc])
    | some p =>
      obtain ⟨om', r⟩ := p
      simp only at h
      by_cases htr : H.truth db om' r = true
      · rw [if_pos htr] at h
        by_cases hr : H.raises db om' r = true
        · rw [if_pos hr] at h
          simp only [Prod.mk.injEq] at h
          exact h.1 ▸ hG
        · rw [if_neg hr] at h
          cases hs : A.save om' r db with
          | error e => rw [hs] at h; simp only [Prod.mk.injEq] at h; exact h.1 ▸ hG
          | ok q =>
            rw [hs] at h
            simp only at h
            have hx : A.saveObject m db = .ok q.1 := by simp only [App.saveObject, hc, hs]
            split at h
            · simp only [Prod.mk.injEq] at h
              exact h.1 ▸ (good_saveObject hG hx).1
            · simp only [Prod.mk.injEq] at h
              exact h.1 ▸ hsave hx
      · rw [if_neg htr] at h
        simp only [Prod.mk.injEq] at h
        refine h.1 ▸ good_dropMarks hG fun hct => ?_
        exfalso
        refine htr (ht db om' r ?_)
        simp only [App.contentObject] at hc
        cases hfind : A.models.find? (fun om => om.model.ct == m.ct) with
        | none => rw [hfind] at hc; simp at hc
        | some om2 =>
          rw [hfind] at hc
          simp only at hc
          have hf := hG.flushable.found
          rw [← hct, hfind] at hf
          simp only [Option.some.injEq] at hf
          subst hf
          split at hc
          · simp at hc
          · simp only [Except.ok.injEq, Option.some.injEq, Prod.mk.injEq] at hc
            rw [← hc.1]
            exact hG.flushable.model

theorem good_flushListWith (ht : ∀ x om r, om.model = cb.model → H.truth x om r = true) : ∀ (ms : List Mark) {db db' : Db} {e : Bool},
    Good A D om cb db → A.flushListWith H ms db = (db', e) → Good A D om cb db'
  | [], db, db', e, hG, h => by
    simp only [App.flushListWith, Prod.mk.injEq] at h
    exact h.1 ▸ hG
  | m :: ms, db, db', e, hG, h => by
    simp only [App.flushListWith] at h
    cases hs : A.flushOneWith H m db with
    | mk x b =>
      rw [hs] at h
      have h1 := good_flushOneWith ht hG hs
      cases b with
      | false => exact good_flushListWith ht ms h1 h
      | true =>
        simp only [Prod.mk.injEq] at h
        exact h.1 ▸ h1

theorem good_flushWith (ht : ∀ x om r, om.model = cb.model → H.truth x om r = true) : ∀ (n : Nat) {db db' : Db} {o : Outcome},
    Good A D om cb db → A.flushWith H n db = (db', o) → Good A D om cb db' ∧ (o = .returned → db'.dirty = [])
  | n, db, db', o, hG, h => by
    unfold App.flushWith at h
    split at h
    · rename_i hd
      simp only [Prod.mk.injEq] at h
      exact h.1 ▸ ⟨hG, fun _ => hd⟩
    · cases n with
      | zero =>
        simp only [Prod.mk.injEq] at h
        exact ⟨h.1 ▸ hG, fun ho => by rw [← h.2] at ho; cases ho⟩
      | succ n =>
        simp only at h
        cases hs : A.flushListWith H (A.snapshot db) db with
        | mk x b =>
          rw [hs] at h
          have h1 := good_flushListWith ht _ hG hs
          cases b with
          | false => exact good_flushWith ht n h1 h
          | true =>
            simp only [Prod.mk.injEq] at h
            exact ⟨h.1 ▸ h1, fun ho => by rw [← h.2] at ho; cases ho⟩

/-- Where instances are truthy and nothing raises, this is flush(). -/
theorem flushWith_plain (ht : ∀ x om r, H.truth x om r = true) (hr : ∀ x om r, H.raises x om r = false)
    (hl : ∀ x om r, H.late x om r = false) : ∀ (n : Nat) {db db' : Db},
    A.flushWith H n db = (db', .returned) ↔ A.flush n db = .ok (some db') := by
  have one : ∀ (m : Mark) (db x : Db), A.flushOneWith H m db = (x, false) ↔ A.flushOne m db = .ok x := by
    intro m db x
    simp only [App.flushOneWith, App.flushOne, App.saveObject]
    cases A.contentObject db m with
    | error e => simp
    | ok o =>
      cases o with
      | none => simp
      | some p =>
        obtain ⟨om', r⟩ := p
        simp only [ht, hr, hl, if_true, Bool.false_eq_true, if_false]
        cases A.save om' r db with
        | error e => simp
        | ok q => simp
  have list : ∀ (ms : List Mark) (db x : Db), A.flushListWith H ms db = (x, false) ↔ A.flushList ms db = .ok x := by
    intro ms
    induction ms with
    | nil => intro db x; simp [App.flushListWith, App.flushList]
    | cons m ms ih =>
      intro db x
      simp only [App.flushListWith, App.flushList]
      cases hs : A.flushOneWith H m db with
      | mk y b =>
        cases b with
        | false =>
          rw [(one m db y).1 hs]
          exact ih y x
        | true =>
          cases hf : A.flushOne m db with
          | error e => simp
          | ok z =>
            have := (one m db z).2 hf
            rw [hs] at this
            simp at this
  intro n
  induction n with
  | zero =>
    intro db db'
    unfold App.flushWith App.flush
    split <;> simp
  | succ n ih =>
    intro db db'
    unfold App.flushWith App.flush
    split
    · simp
    · simp only [App.pass]
      cases hs : A.flushListWith H (A.snapshot db) db with
      | mk y b =>
        cases b with
        | false =>
          rw [(list _ db y).1 hs]
          exact ih
        | true =>
          cases hf : A.flushList (A.snapshot db) db with
          | error e => simp
          | ok z =>
            have := (list _ db z).2 hf
            rw [hs] at this
            simp at this

/-- When the first marker fails, nothing changes, however often flush() is called. -/
theorem stuck (hd : db.dirty ≠ []) {m : Mark} {ms : List Mark} (hs : A.snapshot db = m :: ms) (h : A.flushOneWith H m db = (db, true)) (n : Nat) :
    ∀ k, A.callsWith H (n + 1) k db = db
  | 0 => rfl
  | k + 1 => by
    have : A.flushWith H (n + 1) db = (db, .raised) := by
      unfold App.flushWith
      rw [if_neg hd]
      simp only [hs, App.flushListWith, h]
    simp only [App.callsWith, this]
    exact stuck hd hs h n k

theorem contentObject_noModel {m : Mark} (h : ∀ om ∈ A.models, om.model.ct ≠ m.ct) (db : Db) : A.contentObject db m = .error .noModel := by
  have : A.models.find? (fun om => om.model.ct == m.ct) = none := by
    rw [List.find?_eq_none]
    intro om hom
    simpa using h om hom
  simp only [App.contentObject, this]

theorem flushListWith_noModel {m : Mark} (h : ∀ om ∈ A.models, om.model.ct ≠ m.ct) : ∀ (ms : List Mark), m ∈ ms → ∀ (db : Db),
    (A.flushListWith H ms db).2 = true
  | m' :: ms, hm, db => by
    simp only [App.flushListWith]
    cases hs : A.flushOneWith H m' db with
    | mk y b =>
      cases b with
      | true => rfl
      | false =>
        rcases List.mem_cons.1 hm with rfl | hm
        · simp only [App.flushOneWith, contentObject_noModel h, Prod.mk.injEq, Bool.true_eq_false, and_false] at hs
        · exact flushListWith_noModel h ms hm y

end
end Denorm
