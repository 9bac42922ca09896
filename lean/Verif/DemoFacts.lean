import Verif.DemoTriggers
import Verif.Lemmas.Declared
/-!
# The demo project meets the hypotheses
-/
namespace Denorm

/-- The updates among a trigger's actions. -/
def DbTrigger.updates (tr : DbTrigger) : List UpdAction :=
  tr.actions.filterMap fun a => match a with
    | .update u => some u
    | _ => none

theorem DbTrigger.mem_updates {tr : DbTrigger} {u : UpdAction} : u ∈ tr.updates ↔ Action.update u ∈ tr.actions := by
  simp only [DbTrigger.updates, List.mem_filterMap]
  constructor
  · rintro ⟨a, ha, hu⟩
    cases a <;> simp at hu
    exact hu ▸ ha
  · intro h
    exact ⟨_, h, rfl⟩

/-- A decidable form of `NoReentry` for a given rank. -/
theorem noReentry_of {E : Engine} (rank : String → Nat)
    (h : ∀ tr ∈ E.triggers, ∀ u ∈ tr.updates, ∀ tr' ∈ E.triggers, tr'.table = u.table → tr'.event = .update →
      u.col ∈ tr'.fields → rank tr'.name < rank tr.name) : NoReentry E :=
  fun _ => ⟨rank, fun tr htr u hu => h tr htr u (DbTrigger.mem_updates.2 hu)⟩

/-- To show by evaluation that a statement succeeds with a result that satisfies `P`. -/
theorem ok_of {x : Except DbErr Db} {P : Db → Prop} [DecidablePred P] (h : (match x with
      | .ok db' => decide (P db')
      | .error _ => false) = true) : ∃ db', x = .ok db' ∧ P db' := by
  cases x with
  | error e => simp at h
  | ok db' => exact ⟨db', rfl, by simpa using h⟩

namespace Demo
set_option maxRecDepth 100000

theorem agree : ∀ b, AgreeOnWatch b decls
  | .sqlite => by decide
  | .mysql => by decide
  | .postgresql => by decide

theorem covered (b : Backend) {cb : Callback} (h : cb.denorm ∈ decls) : ∀ g ∈ cb.denorm.triggers, Covered b decls g :=
  fun _ hg => covered_of_agree (agree b) (List.mem_flatMap.2 ⟨_, h, hg⟩)

/-- Triggers on `post` come before triggers on `forum`. -/
def rank (n : String) : Nat :=
  if n = "denorm_after_row_insert_on_post" ∨ n = "denorm_after_row_update_on_post" ∨ n = "denorm_after_row_delete_on_post" then 1
  else 0

theorem noReentry (b : Backend) : NoReentry (engine b) := by
  apply noReentry_of rank
  cases b <;> decide

theorem wd_titles (b : Backend) : WellDeclared b decls titles where
  declared := by simp [decls]
  agree := covered b (by decide)
  table := by decide
  own := by decide
  this := by simp [titles]
  watched := by decide
  keys := by decide
  links := by simp [titles, Dep.m2mTable]

theorem wd_tagsString (b : Backend) : WellDeclared b decls tagsString where
  declared := by simp [decls]
  agree := covered b (by decide)
  table := by decide
  own := by decide
  this := by simp [tagsString]
  watched := by decide
  keys := by decide
  links := by simp [tagsString, Dep.m2mTable]

theorem wd_forumTitle (b : Backend) : WellDeclared b decls forumTitle where
  declared := by simp [decls]
  agree := covered b (by decide)
  table := by decide
  own := by decide
  this := by simp [forumTitle]
  watched := by decide
  keys := by decide
  links := by simp [forumTitle, Dep.m2mTable]

theorem wd_bookmarkTitles (b : Backend) : WellDeclared b decls bookmarkTitles where
  declared := by simp [decls]
  agree := covered b (by decide)
  table := by decide
  own := by decide
  this := by simp [bookmarkTitles]
  watched := by decide
  keys := by decide
  links := by
    intro d hd l hl
    simp only [bookmarkTitles, List.mem_singleton] at hd
    subst hd
    simp only [Dep.m2mTable, bookmarks, Option.mem_def, Option.some.injEq] at hl
    subst hl
    decide

end Demo
end Denorm
