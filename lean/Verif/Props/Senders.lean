import Verif.Spec.Senders
import Verif.Props.M2M
/-!
# C26 for inherited fields and proxy models
-/
namespace Denorm

variable {A : App} {om : OrmModel} {mem mem' : Row} {db db' : Db}

theorem PyClass.mem_local {c : PyClass} {f : M2MField} (h : c.AbstractBases) (hf : c.Has f) : f ∈ c.local := by
  induction h with
  | base => cases hf with | base h => exact h
  | child hp _ ih =>
    simp only [PyClass.local, hp, if_true, List.mem_append]
    cases hf with
    | own h => exact .inr h
    | inherited h => exact .inl (ih h)

/-- C26 for a class that inherits from abstract classes only (the fields may be its own or any base's): save() of an instance that exists
leaves every denormalized ManyToManyField with exactly the objects its callback returned, and leaves the other instances' links alone. `d`
is the database when the callback of `f` runs, after the fields before `f` have been set. Missing: proxy models and subclasses of concrete
models (`C26_violated_proxy`, `C26_not_local`), falsy keys (`C26_violated_zero_key`). -/
theorem C26_inherited_partial {classes : List PyClass} {c : PyClass} {f : M2MField} {n : Nat} (hc : c ∈ classes) (hab : c.AbstractBases)
    (hf : c.Has f) (hP : ProperM2M A.engine om c.local) (hK : KeyFree A.engine om) (hk : (mem om.model.pk).truthy = true)
    (hr : ∃ r ∈ db.rows om.model.table, r om.model.pk = mem om.model.pk)
    (h : A.saveAs classes om c (n + 1) mem db = .ok (some (db', mem'))) :
    ∃ pre post d, c.local = pre ++ f :: post ∧ A.m2mSetAll om mem pre db = .ok d ∧
      (∀ v, Linked f.rel db' (mem om.model.pk) v ↔ v ∈ f.fn d mem) ∧
      otherLinks f.rel db' (mem om.model.pk) = otherLinks f.rel db (mem om.model.pk) := by
  have hm := PyClass.mem_local hab hf
  obtain ⟨pre, post, e⟩ := List.append_of_mem hm
  have hin : c.name ∈ receivers classes := by
    refine List.mem_map_of_mem (List.mem_filter.2 ⟨hc, ?_⟩)
    cases hl : c.local with
    | nil => rw [hl] at hm; cases hm
    | cons => rfl
  have hn : mem om.model.pk ≠ .null := by intro e; rw [e] at hk; simp [Val.truthy] at hk
  rw [App.saveAs, if_pos hin, saveModel_existing hP hK hn hr] at h
  cases hs : A.saveOnce om c.local mem db with
  | error e => rw [hs] at h; simp [Except.map] at h
  | ok p =>
    obtain ⟨a, b, cr⟩ := p
    rw [hs] at h
    simp only [Except.map, Except.ok.injEq, Option.some.injEq, Prod.mk.injEq] at h
    obtain ⟨d, e1, e2, e3⟩ := C26_exact_partial hP hk hs e
    rw [h.1] at e2 e3
    exact ⟨pre, post, d, e, e1, e2, e3⟩

theorem m2mPreSave_rows {fs : List M2MField} {t : TableName} (hU : Untouched A.engine t) (hd : ∀ g ∈ fs, g.rel.through ≠ t)
    (h : A.m2mPreSave om fs mem db = .ok db') : db'.rows t = db.rows t := by
  simp only [App.m2mPreSave] at h
  split at h
  · exact m2mSetAll_rows hU hd h
  · simp only [Except.ok.injEq] at h; rw [h]

theorem saveModel_rows {fs : List M2MField} {t : TableName} (ht : om.model.table ≠ t) (hU : Untouched A.engine t)
    (hd : ∀ g ∈ fs, g.rel.through ≠ t) : ∀ {n : Nat} {mem : Row} {db : Db}, A.saveModel om fs n mem db = .ok (some (db', mem')) →
    db'.rows t = db.rows t
  | 0, _, _, h => by simp [App.saveModel] at h
  | n + 1, mem, db, h => by
    simp only [App.saveModel] at h
    cases h1 : A.saveOnce om fs mem db with
    | error e => rw [h1] at h; simp at h
    | ok p =>
      obtain ⟨db2, mem2, cr⟩ := p
      rw [h1] at h
      simp only [App.saveOnce] at h1
      cases h2 : A.m2mPreSave om fs mem db with
      | error e => rw [h2] at h1; simp at h1
      | ok d =>
        rw [h2] at h1
        simp only at h1
        cases h3 : A.save om mem d with
        | error e => rw [h3] at h1; simp at h1
        | ok q =>
          obtain ⟨d2, m2⟩ := q
          rw [h3] at h1
          simp only [Except.ok.injEq, Prod.mk.injEq] at h1
          have e : db2.rows t = db.rows t := by
            rw [← h1.1, save_rows_other ht hU h3, m2mPreSave_rows hU hd h2]
          simp only at h
          split at h
          · rw [saveModel_rows ht hU hd h, e]
          · simp only [Except.ok.injEq, Option.some.injEq, Prod.mk.injEq] at h
            rw [← h.1, e]

/-- C26 fails for every field that is not one of the class's own (nor copied from an abstract base): whatever its callback returns, save()
of an instance leaves its links as they were. -/
theorem C26_not_local {classes : List PyClass} {c : PyClass} {f : M2MField} {n : Nat} (hf : f.Proper A.engine om)
    (hd : ∀ g ∈ c.local, g.rel.through ≠ f.rel.through) (h : A.saveAs classes om c n mem db = .ok (some (db', mem'))) :
    db'.rows f.rel.through = db.rows f.rel.through := by
  simp only [App.saveAs] at h
  split at h
  · exact saveModel_rows (Ne.symm hf.table) hf.free hd h
  · cases hs : A.save om mem db with
    | error e => rw [hs] at h; simp at h
    | ok p =>
      obtain ⟨a, b⟩ := p
      rw [hs] at h
      simp only [Except.ok.injEq, Option.some.injEq, Prod.mk.injEq] at h
      rw [← h.1, save_rows_other (Ne.symm hf.table) hf.free hs]

namespace Fans
set_option maxRecDepth 100000

/-- `class Liking(Model): favourites; abstract`, `class Fan(Liking): disliked`, `class Admirer(Fan): proxy`. -/
def likingClass : PyClass := .base "Liking" true [favourites] false
def fanClass : PyClass := .child "Fan" false [disliked] true likingClass
def admirerClass : PyClass := .proxy "Admirer" fanClass
def classes : List PyClass := [likingClass, fanClass, admirerClass]

theorem fanClass_bases : fanClass.AbstractBases := .child rfl .base
theorem fanClass_has : fanClass.Has favourites := .inherited (.base (by simp))

/-- `C26_inherited_partial`: fan 1 gets the relation its callback computes, a field of the abstract base class. -/
example (b : Backend) : (match (app b true).saveAs classes (fanOrm true) fanClass 1 (frow 1 1 10) db2 with
      | .ok (some p) => decide (linked favouritesRel (.int 1) p.1 = [.int 20] ∧ linked favouritesRel (.int 2) p.1 = [.int 10])
      | _ => false) = true ∧ fanClass ∈ classes ∧ fanClass.AbstractBases ∧ fanClass.Has favourites ∧
    ProperM2M (engine b true) (fanOrm true) fanClass.local ∧ KeyFree (engine b true) (fanOrm true) :=
  ⟨by cases b <;> decide +kernel, by simp [classes], fanClass_bases, fanClass_has, proper b true, keyFree b true _⟩

end Fans

/-- C26 is violated for proxy models: saving an instance of a proxy of a class with a denormalized ManyToManyField does not set it, because
the handlers are connected with the class itself only. (A concrete subclass of the class has the same problem: `C26_not_local`.) -/
theorem C26_violated_proxy (b : Backend) : ∃ (A : App) (classes : List PyClass) (om : OrmModel) (c : PyClass) (name : String) (f : M2MField)
    (mem : Row) (db : Db) (p : Db × Row),
    A.engine.backend = b ∧ c ∈ classes ∧ .proxy name c ∈ classes ∧ c.AbstractBases ∧ c.Has f ∧ om.Proper ∧ ProperM2M A.engine om c.local ∧
    KeyFree A.engine om ∧ om.Unique db ∧ (mem om.model.pk).truthy = true ∧ mem ∈ db.rows om.model.table ∧
    A.saveAs classes om (.proxy name c) 2 mem db = .ok (some p) ∧
    (∃ v, Linked f.rel p.1 (mem om.model.pk) v ∧ v ∉ f.fn db mem) ∧ ∃ v ∈ f.fn db mem, ¬ Linked f.rel p.1 (mem om.model.pk) v := by
  have hx : (match (Fans.app b true).saveAs Fans.classes (Fans.fanOrm true) Fans.admirerClass 2 (Fans.frow 1 1 10) Fans.db2 with
      | .ok (some _) => true
      | _ => false) = true := by cases b <;> decide +kernel
  cases h : (Fans.app b true).saveAs Fans.classes (Fans.fanOrm true) Fans.admirerClass 2 (Fans.frow 1 1 10) Fans.db2 with
  | error e => rw [h] at hx; simp at hx
  | ok o =>
    cases o with
    | none => rw [h] at hx; simp at hx
    | some p =>
      have e := C26_not_local (f := Fans.favourites) ((Fans.proper b true).each Fans.favourites (by simp)) (by intro g hg; cases hg) h
      refine ⟨Fans.app b true, Fans.classes, Fans.fanOrm true, Fans.fanClass, "Admirer", Fans.favourites, Fans.frow 1 1 10, Fans.db2, p, rfl,
        by simp [Fans.classes], by simp [Fans.classes, Fans.admirerClass], Fans.fanClass_bases, Fans.fanClass_has, Fans.fanProper true,
        Fans.proper b true, Fans.keyFree b true _, by unfold OrmModel.Unique; decide, rfl, by simp [Fans.db2, Fans.fanOrm, Fans.fan], h,
        ⟨.int 10, ?_, by decide⟩, .int 20, by decide, ?_⟩
      · unfold Linked; rw [e]; exact ⟨Fans.link 1 10, by simp [Fans.db2, Fans.favourites, Fans.favouritesRel], by decide, by decide⟩
      · rintro ⟨l, h1, _, h3⟩
        rw [e] at h1
        have : ∀ l ∈ Fans.db2.rows Fans.favourites.rel.through, l Fans.favourites.rel.revName ≠ .int 20 := by decide
        exact this l h1 h3

end Denorm
