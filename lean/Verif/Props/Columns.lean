import Verif.Lemmas.Columns
import Verif.Props.TriggerSet
/-!
# Triggers only mention columns that exist (C52)

What is taken from the databases: MySQL refuses to create a trigger that mentions a column of NEW or OLD that its table does not have. sqlite and
PostgreSQL create it, and then refuse every statement for which it is run.
-/
namespace Denorm

/-- C52, for projects that rename no column with `db_column` and whose relations are not inherited from a multi-table parent. -/
theorem C52_columns_partial {Ms : List Model} {b : Backend} {D : List Denorm} (hD : ∀ dn ∈ D, dn.Local Ms)
    (hN : b = .mysql ∨ ∀ g ∈ generated D, ∀ g' ∈ generated D, ¬ Clash g g') : ColumnsExist Ms (installedTriggers b D) := by
  refine columnsExist_of_good (fun g hg g' hg' h => ?_) fun g hg => ?_
  · have := (C34_names_partial b g g' (hN.imp id fun h => ⟨h g hg g' hg', h g' hg' g hg⟩)).1 h
    simp only [PyTrigger.about, Prod.mk.injEq] at this
    exact this.1
  · obtain ⟨dn, hdn, hg⟩ := List.mem_flatMap.1 hg
    exact good_denorm (hD dn hdn) g hg

/-- C52 is violated by every field with a `db_column` that is not skipped, on a model with a `@denormalized` field: the triggers watch the attribute's
name, whether or not it is a column. -/
theorem C52_violated_db_column {Ms : List Model} {m : Model} {f : Field} (hf : f ∈ m.fields) (hl : f.isLocal = true)
    (hs : f.attname ∉ m.alwaysSkip) (hc : ¬ TableColumn Ms m.table f.attname) (b : Backend) (field : Col) :
    ¬ ColumnsExist Ms (installedTriggers b [.callback false m field [] []]) := by
  intro h
  have hg : mkTrigger (.model m) .update [.markValues m.ct .new m.pk true] m.ct [] ∈ generated [.callback false m field [] []] := by
    simp [generated, Denorm.triggers, selfTriggers]
  obtain ⟨tr, htr, h1, _⟩ := installed_covers (b := b) hg
  obtain ⟨g, hg', h2, h3, _, h4, _⟩ := installed_head htr
  have : g = mkTrigger (.model m) .update [.markValues m.ct .new m.pk true] m.ct [] := by
    simp only [generated, Denorm.triggers, selfTriggers, List.flatMap_cons, List.flatMap_nil, List.append_nil, Bool.false_eq_true, if_false,
      List.mem_cons, List.not_mem_nil, or_false] at hg'
    rcases hg' with rfl | rfl
    · rfl
    · have h5 := h2.trans h1
      have h6 : ∀ e as, PyTrigger.name b (mkTrigger (.model m) e as m.ct []) = baseName e m.table := by
        intro e as; cases b <;> rfl
      rw [h6, h6] at h5
      exact absurd (baseName_inj h5).1 (by decide)
  subst this
  refine hc ?_
  have hm : (m.table, f.attname) ∈ tr.mentions := by
    refine List.mem_append_left _ (List.mem_map.2 ⟨f.attname, List.mem_append_left _ ?_, by rw [h3]; rfl⟩)
    rw [h4]
    simp only [mkTrigger, watchedFields, effectiveSkip, ne_eq, not_true_eq_false, if_false, List.nil_append, List.mem_filter, List.mem_map]
    exact ⟨⟨f, ⟨hf, hl⟩, rfl⟩, by simpa using hs⟩
  exact h tr htr _ hm

namespace Renamed
open Demo (fld fkf)
set_option maxRecDepth 100000

/-- `Post.forum = ForeignKey(Forum, db_column='forum')` -/
def postForum : Field := ⟨"forum", "forum_id", "forum", true, some "<class 'app.Forum'>"⟩

def post : Model := { Demo.post with fields := [fld "id", postForum, fld "title", fld "forum_title", fld "cachekey"] }

def counted : AggDenorm := { Demo.postCount with related := post, fk := postForum }

/-- A forum whose `post_count` is stored in the column `posts`. -/
def forum : Model := { Demo.forum with fields := [fld "id", fld "title", fld "titles", fld "tags_string", ⟨"post_count", "post_count", "posts", true, none⟩] }

/-- C52 is violated by a CountField over a ForeignKey with a `db_column`, even if the related model's watched columns leave it out. -/
theorem C52_violated_count_key (b : Backend) :
    ¬ ColumnsExist [Demo.forum, post] (installedTriggers b [.aggregate { counted with skip := ["forum_id"] }]) := by
  cases b <;> decide

/-- C52 is violated by a CountField that itself has a `db_column`. -/
theorem C52_violated_count_column (b : Backend) :
    ¬ ColumnsExist [forum, Demo.post] (installedTriggers b [.aggregate { Demo.postCount with model := forum }]) := by
  cases b <;> decide

/-- With an unusual name of the ForeignKey column, a `@denormalized` field of the same model, and nothing skipped, C52 is violated. -/
example (b : Backend) : ¬ ColumnsExist [Demo.forum, post] (installedTriggers b [.callback false post "forum_title" [] []]) :=
  C52_violated_db_column (f := postForum) (by decide) rfl (by decide) (by decide) b _

/-- `class Thread(Post)`, with a table of its own: everything but the link to the parent is stored in the table of the parent. -/
def thread : Model :=
  { repr := "<class 'app.Thread'>", appLabel := "app", name := "Thread", table := "thread", pkTable := "thread", pk := "post_ptr_id", ct := 7,
    fields := Demo.post.fields.map (fun f => { f with isLocal := false }) ++ [fkf "post_ptr" "<class 'app.Post'>", fld "headline"] }

def inheritedKey : Field := { Demo.postForum with isLocal := false }

/-- The inherited ForeignKey is the one that is found. -/
example : resolvedModel thread Demo.forum none none = .ok (.forward inheritedKey) ∧ resolvedModel Demo.forum thread none none = .ok (.backward inheritedKey) := by
  constructor <;> rfl

/-- C52 is violated by a dependency through a ForeignKey that a multi-table child inherits: the trigger on Forum looks for `forum_id` in the table of
the child. -/
theorem C52_violated_inherited_forward (b : Backend) : ¬ ColumnsExist [Demo.forum, Demo.post, thread]
    (installedTriggers b [.callback false thread "headline" [] [⟨thread, Demo.forum, .forward inheritedKey, []⟩]]) := by
  cases b <;> decide

/-- C52 is violated in the other direction, too: the trigger on the child's table uses `OLD.forum_id`. -/
theorem C52_violated_inherited_backward (b : Backend) : ¬ ColumnsExist [Demo.forum, Demo.post, thread]
    (installedTriggers b [.callback false Demo.forum "titles" [] [⟨Demo.forum, thread, .backward inheritedKey, []⟩]]) := by
  cases b <;> decide

end Renamed

namespace Renamed
open Demo (fld fkf)
set_option maxRecDepth 100000

/-- A model with the table `tag_1` and the primary key `code`. -/
def tagOne : Model :=
  { repr := "<class 'app.TagOne'>", appLabel := "app", name := "TagOne", table := "tag_1", pkTable := "tag_1", pk := "code", ct := 9,
    fields := [fld "code", fld "name"] }

/-- A forum with tags (content type 1) and a ForeignKey to `tag_1`. -/
def tagged : Model := { Demo.forum with fields := Demo.forum.fields ++ [fkf "one" "<class 'app.TagOne'>"] }

def clashing : List Denorm :=
  [.callback false tagged "tags_string" [] [⟨tagged, Demo.tag, .forwardM2M (.generic Demo.tagRel), []⟩],
   .callback false tagged "one_name" [] [⟨tagged, tagOne, .forward (fkf "one" "<class 'app.TagOne'>"), []⟩]]

/-- C52 needs different names for triggers on different tables (C34): here the reaction to `tag_1` is attached to `tag`, which has no column `code`. -/
theorem C52_violated_clash : (∀ dn ∈ clashing, dn.Local [tagged, Demo.tag, tagOne]) ∧
    ¬ ColumnsExist [tagged, Demo.tag, tagOne] (installedTriggers .postgresql clashing) := by
  refine ⟨?_, by decide⟩
  have hf : PlainColumns [tagged, Demo.tag, tagOne] tagged := ⟨by decide, by decide, by decide⟩
  have ht : PlainColumns [tagged, Demo.tag, tagOne] Demo.tag := ⟨by decide, by decide, by decide⟩
  have h1 : PlainColumns [tagged, Demo.tag, tagOne] tagOne := ⟨by decide, by decide, by decide⟩
  intro dn hdn
  simp only [clashing, List.mem_cons, List.not_mem_nil, or_false] at hdn
  rcases hdn with rfl | rfl
  · refine ⟨hf, fun d hd => ?_⟩
    rw [List.mem_singleton] at hd; subst hd
    exact ⟨hf, rfl, ht, Demo.tag, ht, rfl, rfl, by decide, by decide, by decide⟩
  · refine ⟨hf, fun d hd => ?_⟩
    rw [List.mem_singleton] at hd; subst hd
    exact ⟨hf, rfl, h1, by decide, rfl⟩

end Renamed

namespace Demo
set_option maxRecDepth 100000

theorem tagRel_found : tagRel.Found [forum, post, member, tag] :=
  ⟨tag, ⟨by decide, by decide, by decide⟩, rfl, rfl, by decide, by decide, by decide⟩

/-- The hypotheses of C52 are met by the demo project: both directions of a ForeignKey, a many-to-many and a generic relation, a CountField and a
CacheKeyField. -/
theorem decls_local : ∀ dn ∈ cacheKey :: decls, dn.Local [forum, post, member, tag] := by
  have hf : PlainColumns [forum, post, member, tag] forum := ⟨by decide, by decide, by decide⟩
  have hp : PlainColumns [forum, post, member, tag] post := ⟨by decide, by decide, by decide⟩
  have hm : PlainColumns [forum, post, member, tag] member := ⟨by decide, by decide, by decide⟩
  have ht : PlainColumns [forum, post, member, tag] tag := ⟨by decide, by decide, by decide⟩
  intro dn hdn
  simp only [decls, cacheKey, List.mem_cons, List.not_mem_nil, or_false] at hdn
  rcases hdn with rfl | rfl | rfl | rfl | rfl | rfl
  · refine ⟨by decide, fun d hd => ?_⟩
    rw [List.mem_singleton] at hd; subst hd
    exact ⟨rfl, hp, rfl, hf, by decide, rfl⟩
  · refine ⟨hf, fun d hd => ?_⟩
    simp only [titles, List.map_cons, List.map_nil, List.mem_singleton] at hd; subst hd
    exact ⟨hf, rfl, hp, by decide, rfl⟩
  · refine ⟨hf, fun d hd => ?_⟩
    simp only [tagsString, List.map_cons, List.map_nil, List.mem_singleton] at hd; subst hd
    exact ⟨hf, rfl, ht, tagRel_found⟩
  · exact ⟨hf, hp, by decide, by decide, rfl, by simp [postCount], by simp [postCount]⟩
  · refine ⟨hp, fun d hd => ?_⟩
    simp only [forumTitle, List.map_cons, List.map_nil, List.mem_singleton] at hd; subst hd
    exact ⟨hp, rfl, hf, by decide, rfl⟩
  · refine ⟨hm, fun d hd => ?_⟩
    simp only [bookmarkTitles, List.map_cons, List.map_nil, List.mem_singleton] at hd; subst hd
    exact ⟨hm, rfl, hp, by decide⟩

example (b : Backend) : ColumnsExist [forum, post, member, tag] (installedTriggers b (cacheKey :: decls)) :=
  C52_columns_partial decls_local (.inr (by decide))

example (b : Backend) : (installedTriggers b (cacheKey :: decls)).length = 14 := by cases b <;> decide

end Demo

end Denorm
