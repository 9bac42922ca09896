import Verif.DemoFacts
import Verif.Lemmas.Flush
/-!
# The demo project as an application that saves and flushes
-/
namespace Denorm

instance (tr : DbTrigger) : Decidable tr.Unconditional := by unfold DbTrigger.Unconditional; infer_instance

/-- To bound by evaluation the columns that triggers reach. -/
theorem reached_within {E : Engine} {om : OrmModel} (K : List (TableName × Col))
    (h : ∀ tr ∈ E.triggers, tr.event = .update →
      ((tr.table = om.model.table ∧ (tr.Unconditional ∨ ∃ c ∈ tr.fields, c ∈ om.denormCols)) ∨
        ∃ p ∈ K, tr.table = p.1 ∧ (tr.Unconditional ∨ p.2 ∈ tr.fields)) → ∀ u ∈ tr.updates, (u.table, u.col) ∈ K)
    {t : TableName} {c : Col} (hr : Reached E om t c) : (t, c) ∈ K := by
  induction hr with
  | direct htr ht he hc hu => exact h _ htr he (.inl ⟨ht, hc⟩) _ (DbTrigger.mem_updates.2 hu)
  | next _ htr ht he hc hu ih => exact h _ htr he (.inr ⟨_, ih, ht, hc⟩) _ (DbTrigger.mem_updates.2 hu)

/-- To show by evaluation that a flush returns, with a result that satisfies `P`. -/
theorem flush_of {x : Except OrmErr (Option Db)} {P : Db → Prop} [DecidablePred P] (h : (match x with
      | .ok (some db') => decide (P db')
      | _ => false) = true) : ∃ db', x = .ok (some db') ∧ P db' := by
  match x, h with
  | .ok (some db'), h => exact ⟨db', rfl, by simpa using h⟩

/-- The same for a step of flush. -/
theorem orm_of {x : Except OrmErr Db} {P : Db → Prop} [DecidablePred P] (h : (match x with
      | .ok db' => decide (P db')
      | _ => false) = true) : ∃ db', x = .ok db' ∧ P db' := by
  match x, h with
  | .ok db', h => exact ⟨db', rfl, by simpa using h⟩

namespace Demo
set_option maxRecDepth 100000

def forumOrm : OrmModel := ⟨forum, [⟨"title", .plain⟩, ⟨"titles", .callback titles⟩, ⟨"tags_string", .callback tagsString⟩,
  ⟨"post_count", .aggregate⟩]⟩
def postOrm : OrmModel := ⟨post, [⟨"forum_id", .plain⟩, ⟨"title", .plain⟩, ⟨"forum_title", .callback forumTitle⟩,
  ⟨"cachekey", .cacheKey⟩]⟩
def memberOrm : OrmModel := ⟨member, [⟨"name", .plain⟩, ⟨"bookmark_titles", .callback bookmarkTitles⟩]⟩
def tagOrm : OrmModel := ⟨tag, [⟨"name", .plain⟩, ⟨"content_type_id", .plain⟩, ⟨"object_id", .plain⟩]⟩

def app (b : Backend) : App := ⟨engine b, [forumOrm, postOrm, memberOrm, tagOrm], fun l => l, fun db _ _ => db.draws, 100⟩

/-- What triggers can reach from any save: only the post count. -/
theorem reached (b : Backend) : ∀ om ∈ (app b).models, ∀ t c, Reached (engine b) om t c → (t, c) ∈ [("forum", "post_count")] := by
  intro om hom t c hr
  refine reached_within _ ?_ hr
  simp only [app, List.mem_cons, List.not_mem_nil, or_false] at hom
  rcases hom with rfl | rfl | rfl | rfl <;> cases b <;> decide

theorem keysSafe (b : Backend) : KeysSafe (app b) where
  kept := by cases b <;> decide
  free := by
    intro om hom om' hom' hr
    have := reached b om' hom' _ _ hr
    clear hr; revert om
    cases b <;> decide

/-- A decidable sufficient condition for `DepStable`. -/
theorem depStable_of (b : Backend) {om : OrmModel} (hom : om ∈ (app b).models) {d : DepRead} (db : Db)
    (h1 : ("forum", "post_count") ∉ d.sees) (h2 : ∀ p ∈ d.sees, p.1 = om.model.table → p.2 ∉ om.denormCols) :
    DepStable (app b) om d db :=
  ⟨fun p hp hr => by
    have := reached b om hom _ _ hr
    simp only [List.mem_singleton] at this
    exact h1 (this ▸ hp), .inl h2⟩

theorem own_of (b : Backend) {om : OrmModel} (hom : om ∈ (app b).models) {cb : Callback}
    (h : ∀ c ∈ cb.ownCols, (om.model.table, c) ≠ ("forum", "post_count")) :
    ∀ c ∈ cb.ownCols, ¬ Reached (app b).engine om om.model.table c := by
  intro c hc hr
  have := reached b om hom _ _ hr
  simp only [List.mem_singleton] at this
  exact h c hc this

theorem flushable_titles (b : Backend) (db : Db) : Flushable (app b) decls forumOrm titles db where
  installed := installed b
  declared := wd_titles b
  noReentry := noReentry b
  found := by cases b <;> rfl
  model := rfl
  cols := by decide
  order := ⟨[⟨"title", .plain⟩], _, rfl, by decide⟩
  own := own_of b (by simp [app]) (by decide)
  deps := by
    intro d hd
    simp only [titles, List.mem_singleton] at hd
    subst hd
    exact depStable_of b (by simp [app]) db (by decide) (by decide)
  pks := by cases b <;> decide
  safe := keysSafe b

theorem flushable_tagsString (b : Backend) (db : Db) : Flushable (app b) decls forumOrm tagsString db where
  installed := installed b
  declared := wd_tagsString b
  noReentry := noReentry b
  found := by cases b <;> rfl
  model := rfl
  cols := by decide
  order := ⟨[⟨"title", .plain⟩, ⟨"titles", .callback titles⟩], _, rfl, by decide⟩
  own := own_of b (by simp [app]) (by decide)
  deps := by
    intro d hd
    simp only [tagsString, List.mem_singleton] at hd
    subst hd
    exact depStable_of b (by simp [app]) db (by decide) (by decide)
  pks := by cases b <;> decide
  safe := keysSafe b

theorem flushable_forumTitle (b : Backend) (db : Db) : Flushable (app b) decls postOrm forumTitle db where
  installed := installed b
  declared := wd_forumTitle b
  noReentry := noReentry b
  found := by cases b <;> rfl
  model := rfl
  cols := by decide
  order := ⟨[⟨"forum_id", .plain⟩, ⟨"title", .plain⟩], _, rfl, by decide⟩
  own := own_of b (by simp [app]) (by decide)
  deps := by
    intro d hd
    simp only [forumTitle, List.mem_singleton] at hd
    subst hd
    exact depStable_of b (by simp [app]) db (by decide) (by decide)
  pks := by cases b <;> decide
  safe := keysSafe b

theorem flushable_bookmarkTitles (b : Backend) (db : Db) : Flushable (app b) decls memberOrm bookmarkTitles db where
  installed := installed b
  declared := wd_bookmarkTitles b
  noReentry := noReentry b
  found := by cases b <;> rfl
  model := rfl
  cols := by decide
  order := ⟨[⟨"name", .plain⟩], _, rfl, by decide⟩
  own := own_of b (by simp [app]) (by decide)
  deps := by
    intro d hd
    simp only [bookmarkTitles, List.mem_singleton] at hd
    subst hd
    exact depStable_of b (by simp [app]) db (by decide) (by decide)
  pks := by cases b <;> decide
  safe := keysSafe b

end Demo
end Denorm
