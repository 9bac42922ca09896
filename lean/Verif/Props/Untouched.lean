import Verif.Lemmas.Untouched
import Verif.Props.Hooks
import Verif.Props.Rebuild
/-!
# C73: flush() and rebuildall() write denormalized columns only

However a call ends, every table has the same rows in the same order as before, and only columns of denormalized fields differ. Where
everything is up to date already, nothing differs at all.
-/
namespace Denorm

section
variable {A : App} {D : List Denorm} {H : Hooks} {db db' : Db}

/-- C73: whatever is marked, whatever the project's own code does (falsy instances, exceptions before and after an instance is written), and
whether flush() returns, raises an exception or is still running: no row has been added, removed or moved, and outside denormalized columns
nothing has changed. Missing: projects in which other fields compute a value when they are saved (`Chain.C73_violated_auto_now`). -/
theorem C73_flush_partial (hE : Installed A.engine D) (hthis : ∀ dn ∈ D, ∀ d ∈ dn.deps, d.this = dn.model) (hO : OnlyDenorms A D)
    (hu : KeysUnique A db) {n : Nat} {o : Outcome} (h : A.flushWith H n db = (db', o)) : SameData (Denormalized D) db.rows db'.rows :=
  sameData_of fun t => by
    have := kept_flushWith hE hthis hO H n hu
    rw [h] at this
    exact this t

/-- C73 for rebuildall(), of any selection of fields. -/
theorem C73_rebuildall_partial (hE : Installed A.engine D) (hthis : ∀ dn ∈ D, ∀ d ∈ dn.deps, d.this = dn.model) (hO : OnlyDenorms A D)
    (hu : KeysUnique A db) {mn fn : Option String} {n : Nat} (h : A.rebuildall D mn fn n db = .ok (some db')) :
    SameData (Denormalized D) db.rows db'.rows :=
  C73_flush_partial (H := ⟨fun _ _ _ => true, fun _ _ _ => false, fun _ _ _ => false⟩)
    (db := db.addMarks (rebuildMarks (rebuildModels D mn fn) db)) hE hthis hO hu
    ((C65_plain (fun _ _ _ => rfl) (fun _ _ _ => rfl) (fun _ _ _ => rfl) n).2 h)

/-- C73: where every `@denormalized` field is right already, flush() goes through the markers once and changes no row at all, not even the
counters. Missing: CacheKeyFields, which are renewed by every save, and the conditions that are TRUE although nothing changed (`FireAnyway`, see
C06). -/
theorem C73_idle_partial (hp : ∀ l, (A.arrange l).Perm l) (hq : ∀ t, ∀ tr ∈ A.engine.watchers t, ¬ FireAnyway A.engine tr) (hu : KeysUnique A db)
    (hA : AllFresh A db) (hf : ∀ om ∈ A.models, (db.rows om.model.table).length < A.fuel) (hm : MarksKnown A db) (n : Nat) :
    ∃ db', A.flush (n + 1) db = .ok (some db') ∧ db'.dirty = [] ∧ ∀ t, db'.rows t = db.rows t := by
  by_cases hd : db.dirty = []
  · exact ⟨db, by unfold App.flush; rw [if_pos hd], hd, fun _ => rfl⟩
  · obtain ⟨db', h1, h2, h3⟩ := idle_flushList hq (A.snapshot db) ⟨hu, hA, hf⟩ fun m hm' => hm m ((mem_snapshot hp).1 hm')
    have h4 : db'.dirty = [] := by
      rw [h3, List.filter_eq_nil_iff]
      intro m hm'
      simp [(mem_snapshot hp).2 hm']
    refine ⟨db', ?_, h4, fun t => congrFun h2 t⟩
    unfold App.flush
    rw [if_neg hd]
    simp only [App.pass, h1]
    unfold App.flush
    rw [if_pos h4]

/-- C73: rebuildall() in such a database changes nothing. -/
theorem C73_idle_rebuild_partial (hp : ∀ l, (A.arrange l).Perm l) (hq : ∀ t, ∀ tr ∈ A.engine.watchers t, ¬ FireAnyway A.engine tr)
    (hu : KeysUnique A db) (hA : AllFresh A db) (hf : ∀ om ∈ A.models, (db.rows om.model.table).length < A.fuel) (hm : MarksKnown A db)
    (hD : ∀ dn ∈ D, ∃ om ∈ A.models, om.model.ct = dn.model.ct) (mn fn : Option String) (n : Nat) :
    ∃ db', A.rebuildall D mn fn (n + 1) db = .ok (some db') ∧ db'.dirty = [] ∧ ∀ t, db'.rows t = db.rows t := by
  refine C73_idle_partial (db := db.addMarks (rebuildMarks (rebuildModels D mn fn) db)) hp hq hu
    (IdleOk.same ⟨hu, hA, hf⟩ rfl).fresh hf (fun m hm' => ?_) n
  rcases List.mem_append.1 hm' with h | h
  · exact hm m h
  · obtain ⟨dn, hdn, _, r, _, e⟩ := mem_rebuildMarks.1 h
    rw [e]
    exact hD dn hdn

end

/-! ## The hypotheses are met, and are needed -/

namespace Chain
set_option maxRecDepth 100000

theorem onlyDenorms (b : Backend) : OnlyDenorms (app b) decls where
  computed := by
    unfold Denormalized
    cases b <;> simp only [app] <;> decide
  saved := by cases b <;> simp only [app] <;> decide
  keys := by
    unfold Denormalized
    cases b <;> simp only [app] <;> decide

/-- `C73_flush_partial`: a receiver of `post_save` raises an exception for entry 1, which has been written; flush() ends there. -/
example (b : Backend) : ∃ x, (app b).flushWith lateEntry 3 twoStale = (x, .raised) ∧
    (x.rows "entry").map (fun r => r "label") = [.text "Z", .text "A"] ∧ SameData (Denormalized decls) twoStale.rows x.rows := by
  obtain ⟨x, h, h1⟩ : ∃ x, (app b).flushWith lateEntry 3 twoStale = (x, .raised) ∧
      (x.rows "entry").map (fun r => r "label") = [.text "Z", .text "A"] := flushWith_of (by cases b <;> decide +kernel)
  exact ⟨x, h, h1, C73_flush_partial (A := app b) rfl (by decide) (onlyDenorms b) (two_unique b _) h⟩

/-- `C73_rebuildall_partial`: the blog was renamed; the labels and paths change, nothing else. -/
example (b : Backend) : ∃ db', (app b).rebuildall decls none none 3 staleDb = .ok (some db') ∧
    ((db'.rows "entry").map (fun r => r "label") = [.text "Z"] ∧ (db'.rows "comment").map (fun r => r "path") = [.text "Z"]) ∧
    SameData (Denormalized decls) staleDb.rows db'.rows := by
  obtain ⟨db', h, h1⟩ : ∃ db', (app b).rebuildall decls none none 3 staleDb = .ok (some db') ∧
      ((db'.rows "entry").map (fun r => r "label") = [.text "Z"] ∧ (db'.rows "comment").map (fun r => r "path") = [.text "Z"]) :=
    flush_of (by cases b <;> decide +kernel)
  exact ⟨db', h, h1, C73_rebuildall_partial (A := app b) rfl (by decide) (onlyDenorms b) (stale_unique b _) h⟩

theorem quiet (b : Backend) : ∀ t, ∀ tr ∈ (app b).engine.watchers t, ¬ FireAnyway (app b).engine tr := by
  intro t tr htr
  obtain ⟨htr, he⟩ := List.mem_filter.1 htr
  have he : tr.event = .update := by simp only [Bool.and_eq_true, decide_eq_true_eq] at he; exact he.2
  have : ∀ tr ∈ installedTriggers b decls, tr.ctField = none ∧ (tr.event = .update → tr.fields ≠ []) := by
    cases b <;> decide
  rintro (⟨_, h⟩ | ⟨_, h⟩)
  · exact h (this tr htr).1
  · exact (this tr htr).2 he h

theorem fresh (b : Backend) : AllFresh (app b) db := by
  intro om hom f hf
  simp only [app, List.mem_cons, List.not_mem_nil, or_false] at hom
  rcases hom with rfl | rfl | rfl <;> simp only [blogOrm, entryOrm, commentOrm, List.mem_cons, List.not_mem_nil, or_false] at hf
  · subst hf; trivial
  · rcases hf with rfl | rfl
    · trivial
    · show ∀ r ∈ db.rows "entry", r "label" = label.value db r
      decide
  · rcases hf with rfl | rfl
    · trivial
    · show ∀ r ∈ db.rows "comment", r "path" = path.value db r
      decide

/-- `C73_idle_partial`: everything is up to date, everything is marked. -/
example (b : Backend) : ∃ db', (app b).rebuildall decls none none 1 db = .ok (some db') ∧ db'.dirty = [] ∧ ∀ t, db'.rows t = db.rows t :=
  C73_idle_rebuild_partial (fun l => List.Perm.refl l) (quiet b) (by unfold KeysUnique; cases b <;> simp only [app] <;> decide)
    (fresh b) (by cases b <;> simp only [app] <;> decide)
    (by unfold MarksKnown; cases b <;> simp only [app] <;> decide) (by cases b <;> simp only [app] <;> decide) none none 0

/-- `modified = DateTimeField(auto_now=True)`: its `pre_save` returns the current time, say 99. -/
def modified : Callback := { model := entry, field := "modified", own := [], fn := fun _ _ => .int 99, deps := [] }

/-- Entries with such a field. It is not declared with django-denorm. -/
def stampedApp (b : Backend) : App :=
  { app b with models := [blogOrm, ⟨entry, [⟨"blog_id", .plain⟩, ⟨"label", .callback label⟩, ⟨"modified", .callback modified⟩]⟩, commentOrm] }

/-- C73 is violated by fields like `DateTimeField(auto_now=True)`: flush() saves instances the way a user does, so everything it looks at counts
as modified. Here nobody has touched the entry, and its label is right. -/
theorem C73_violated_auto_now (b : Backend) : ∃ (A : App) (D : List Denorm) (db db' : Db), A.engine.backend = b ∧ Installed A.engine D ∧
    KeysUnique A db ∧ A.flush 2 db = .ok (some db') ∧ (∀ r ∈ db.rows "entry", r "label" = label.value db r) ∧
    (db.rows "entry").map (fun r => r "modified") = [.int 5] ∧ (db'.rows "entry").map (fun r => r "modified") = [.int 99] ∧
    ¬ Denormalized D "entry" "modified" := by
  let db0 : Db := { db with rows := fun t => if t = "entry" then [(erow 1 1 "A").set "modified" (.int 5)] else db.rows t, dirty := [⟨12, .int 1⟩] }
  obtain ⟨db', h, h1⟩ : ∃ db', (stampedApp b).flush 2 db0 = .ok (some db') ∧ (db'.rows "entry").map (fun r => r "modified") = [.int 99] :=
    flush_of (by cases b <;> decide +kernel)
  exact ⟨stampedApp b, decls, db0, db', rfl, rfl, by unfold KeysUnique; cases b <;> simp only [stampedApp, app] <;> decide, h, by decide,
    by decide, h1, by unfold Denormalized; decide⟩

end Chain
end Denorm
