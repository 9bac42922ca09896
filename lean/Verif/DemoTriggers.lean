import Verif.Demo
/-!
# The triggers of the demo project, spelled out
-/
namespace Denorm.Demo

def sqliteTriggers : List DbTrigger :=
  [{ name := "denorm_after_row_update_on_forum",
     table := "forum",
     event := Denorm.Event.update,
     fields := ["id", "title", "titles", "tags_string", "post_count"],
     ctField := none,
     ct := 1,
     actions := [Denorm.Action.markValues 1 (Denorm.Side.new) "id" true,
                 Denorm.Action.markSelect 2 "id" "post" "forum_id" (Denorm.Side.new) "id" false] },
   { name := "denorm_after_row_insert_on_forum",
     table := "forum",
     event := Denorm.Event.insert,
     fields := ["id", "title", "titles", "tags_string", "post_count"],
     ctField := none,
     ct := 1,
     actions := [Denorm.Action.markValues 1 (Denorm.Side.new) "id" true,
                 Denorm.Action.markSelect 2 "id" "post" "forum_id" (Denorm.Side.new) "id" false] },
   { name := "denorm_after_row_update_on_post",
     table := "post",
     event := Denorm.Event.update,
     fields := ["id", "forum_id", "title", "forum_title", "cachekey"],
     ctField := none,
     ct := 1,
     actions := [Denorm.Action.markSelect 1 "forum_id" "post" "id" (Denorm.Side.new) "id" false,
                 Denorm.Action.markValues 1 (Denorm.Side.old) "forum_id" false,
                 Denorm.Action.update
                   { table := "forum",
                     col := "post_count",
                     expr := Denorm.SetExpr.plus (Denorm.Term.one),
                     key := Denorm.Key.eq "id" (Denorm.Side.new) "forum_id",
                     guards := [] },
                 Denorm.Action.update
                   { table := "forum",
                     col := "post_count",
                     expr := Denorm.SetExpr.minus (Denorm.Term.one),
                     key := Denorm.Key.eq "id" (Denorm.Side.old) "forum_id",
                     guards := [] },
                 Denorm.Action.markValues 2 (Denorm.Side.new) "id" true,
                 Denorm.Action.markSelect 3 "member_id" "member_bookmarks" "post_id" (Denorm.Side.new) "id" true] },
   { name := "denorm_after_row_insert_on_post",
     table := "post",
     event := Denorm.Event.insert,
     fields := ["id", "forum_id", "title", "forum_title", "cachekey"],
     ctField := none,
     ct := 1,
     actions := [Denorm.Action.markSelect 1 "forum_id" "post" "id" (Denorm.Side.new) "id" false,
                 Denorm.Action.update
                   { table := "forum",
                     col := "post_count",
                     expr := Denorm.SetExpr.plus (Denorm.Term.one),
                     key := Denorm.Key.eq "id" (Denorm.Side.new) "forum_id",
                     guards := [] },
                 Denorm.Action.markValues 2 (Denorm.Side.new) "id" true] },
   { name := "denorm_after_row_delete_on_post",
     table := "post",
     event := Denorm.Event.delete,
     fields := ["id", "forum_id", "title", "forum_title", "cachekey"],
     ctField := none,
     ct := 1,
     actions := [Denorm.Action.markValues 1 (Denorm.Side.old) "forum_id" false,
                 Denorm.Action.update
                   { table := "forum",
                     col := "post_count",
                     expr := Denorm.SetExpr.minus (Denorm.Term.one),
                     key := Denorm.Key.eq "id" (Denorm.Side.old) "forum_id",
                     guards := [] }] },
   { name := "denorm_after_row_update_on_tag_1",
     table := "tag",
     event := Denorm.Event.update,
     fields := ["id", "name", "content_type_id", "object_id"],
     ctField := some "content_type_id",
     ct := 1,
     actions := [Denorm.Action.markValues 1 (Denorm.Side.new) "object_id" true,
                 Denorm.Action.markValues 1 (Denorm.Side.old) "object_id" true] },
   { name := "denorm_after_row_insert_on_tag_1",
     table := "tag",
     event := Denorm.Event.insert,
     fields := ["id", "name", "content_type_id", "object_id"],
     ctField := some "content_type_id",
     ct := 1,
     actions := [Denorm.Action.markValues 1 (Denorm.Side.new) "object_id" true] },
   { name := "denorm_after_row_delete_on_tag_1",
     table := "tag",
     event := Denorm.Event.delete,
     fields := ["id", "name", "content_type_id", "object_id"],
     ctField := some "content_type_id",
     ct := 1,
     actions := [Denorm.Action.markValues 1 (Denorm.Side.old) "object_id" true] },
   { name := "denorm_after_row_delete_on_forum",
     table := "forum",
     event := Denorm.Event.delete,
     fields := ["id", "title", "titles", "tags_string", "post_count"],
     ctField := none,
     ct := 2,
     actions := [Denorm.Action.markSelect 2 "id" "post" "forum_id" (Denorm.Side.old) "id" false] },
   { name := "denorm_after_row_update_on_member",
     table := "member",
     event := Denorm.Event.update,
     fields := ["id", "name", "bookmark_titles"],
     ctField := none,
     ct := 3,
     actions := [Denorm.Action.markValues 3 (Denorm.Side.new) "id" true] },
   { name := "denorm_after_row_insert_on_member",
     table := "member",
     event := Denorm.Event.insert,
     fields := ["id", "name", "bookmark_titles"],
     ctField := none,
     ct := 3,
     actions := [Denorm.Action.markValues 3 (Denorm.Side.new) "id" true] },
   { name := "denorm_after_row_update_on_member_bookmarks",
     table := "member_bookmarks",
     event := Denorm.Event.update,
     fields := ["member_id", "post_id"],
     ctField := none,
     ct := 3,
     actions := [Denorm.Action.markValues 3 (Denorm.Side.new) "member_id" true,
                 Denorm.Action.markValues 3 (Denorm.Side.old) "member_id" true] },
   { name := "denorm_after_row_insert_on_member_bookmarks",
     table := "member_bookmarks",
     event := Denorm.Event.insert,
     fields := ["member_id", "post_id"],
     ctField := none,
     ct := 3,
     actions := [Denorm.Action.markValues 3 (Denorm.Side.new) "member_id" true] },
   { name := "denorm_after_row_delete_on_member_bookmarks",
     table := "member_bookmarks",
     event := Denorm.Event.delete,
     fields := ["member_id", "post_id"],
     ctField := none,
     ct := 3,
     actions := [Denorm.Action.markValues 3 (Denorm.Side.old) "member_id" true] }]

def mysqlTriggers : List DbTrigger :=
  [{ name := "denorm_after_row_update_on_forum",
     table := "forum",
     event := Denorm.Event.update,
     fields := ["id", "title", "titles", "tags_string", "post_count"],
     ctField := none,
     ct := 1,
     actions := [Denorm.Action.markValues 1 (Denorm.Side.new) "id" true,
                 Denorm.Action.markSelect 2 "id" "post" "forum_id" (Denorm.Side.new) "id" false] },
   { name := "denorm_after_row_insert_on_forum",
     table := "forum",
     event := Denorm.Event.insert,
     fields := ["id", "title", "titles", "tags_string", "post_count"],
     ctField := none,
     ct := 1,
     actions := [Denorm.Action.markValues 1 (Denorm.Side.new) "id" true,
                 Denorm.Action.markSelect 2 "id" "post" "forum_id" (Denorm.Side.new) "id" false] },
   { name := "denorm_after_row_update_on_post",
     table := "post",
     event := Denorm.Event.update,
     fields := ["id", "forum_id", "title", "forum_title", "cachekey"],
     ctField := none,
     ct := 1,
     actions := [Denorm.Action.markSelect 1 "forum_id" "post" "id" (Denorm.Side.new) "id" false,
                 Denorm.Action.markValues 1 (Denorm.Side.old) "forum_id" false,
                 Denorm.Action.update
                   { table := "forum",
                     col := "post_count",
                     expr := Denorm.SetExpr.plus (Denorm.Term.one),
                     key := Denorm.Key.eq "id" (Denorm.Side.new) "forum_id",
                     guards := [] },
                 Denorm.Action.update
                   { table := "forum",
                     col := "post_count",
                     expr := Denorm.SetExpr.minus (Denorm.Term.one),
                     key := Denorm.Key.eq "id" (Denorm.Side.old) "forum_id",
                     guards := [] },
                 Denorm.Action.markValues 2 (Denorm.Side.new) "id" true,
                 Denorm.Action.markSelect 3 "member_id" "member_bookmarks" "post_id" (Denorm.Side.new) "id" true] },
   { name := "denorm_after_row_insert_on_post",
     table := "post",
     event := Denorm.Event.insert,
     fields := ["id", "forum_id", "title", "forum_title", "cachekey"],
     ctField := none,
     ct := 1,
     actions := [Denorm.Action.markSelect 1 "forum_id" "post" "id" (Denorm.Side.new) "id" false,
                 Denorm.Action.update
                   { table := "forum",
                     col := "post_count",
                     expr := Denorm.SetExpr.plus (Denorm.Term.one),
                     key := Denorm.Key.eq "id" (Denorm.Side.new) "forum_id",
                     guards := [] },
                 Denorm.Action.markValues 2 (Denorm.Side.new) "id" true] },
   { name := "denorm_after_row_delete_on_post",
     table := "post",
     event := Denorm.Event.delete,
     fields := ["id", "forum_id", "title", "forum_title", "cachekey"],
     ctField := none,
     ct := 1,
     actions := [Denorm.Action.markValues 1 (Denorm.Side.old) "forum_id" false,
                 Denorm.Action.update
                   { table := "forum",
                     col := "post_count",
                     expr := Denorm.SetExpr.minus (Denorm.Term.one),
                     key := Denorm.Key.eq "id" (Denorm.Side.old) "forum_id",
                     guards := [] }] },
   { name := "denorm_after_row_update_on_tag",
     table := "tag",
     event := Denorm.Event.update,
     fields := ["id", "name", "content_type_id", "object_id"],
     ctField := some "content_type_id",
     ct := 1,
     actions := [Denorm.Action.markValues 1 (Denorm.Side.new) "object_id" true,
                 Denorm.Action.markValues 1 (Denorm.Side.old) "object_id" true] },
   { name := "denorm_after_row_insert_on_tag",
     table := "tag",
     event := Denorm.Event.insert,
     fields := ["id", "name", "content_type_id", "object_id"],
     ctField := some "content_type_id",
     ct := 1,
     actions := [Denorm.Action.markValues 1 (Denorm.Side.new) "object_id" true] },
   { name := "denorm_after_row_delete_on_tag",
     table := "tag",
     event := Denorm.Event.delete,
     fields := ["id", "name", "content_type_id", "object_id"],
     ctField := some "content_type_id",
     ct := 1,
     actions := [Denorm.Action.markValues 1 (Denorm.Side.old) "object_id" true] },
   { name := "denorm_after_row_delete_on_forum",
     table := "forum",
     event := Denorm.Event.delete,
     fields := ["id", "title", "titles", "tags_string", "post_count"],
     ctField := none,
     ct := 2,
     actions := [Denorm.Action.markSelect 2 "id" "post" "forum_id" (Denorm.Side.old) "id" false] },
   { name := "denorm_after_row_update_on_member",
     table := "member",
     event := Denorm.Event.update,
     fields := ["id", "name", "bookmark_titles"],
     ctField := none,
     ct := 3,
     actions := [Denorm.Action.markValues 3 (Denorm.Side.new) "id" true] },
   { name := "denorm_after_row_insert_on_member",
     table := "member",
     event := Denorm.Event.insert,
     fields := ["id", "name", "bookmark_titles"],
     ctField := none,
     ct := 3,
     actions := [Denorm.Action.markValues 3 (Denorm.Side.new) "id" true] },
   { name := "denorm_after_row_update_on_member_bookmarks",
     table := "member_bookmarks",
     event := Denorm.Event.update,
     fields := ["member_id", "post_id"],
     ctField := none,
     ct := 3,
     actions := [Denorm.Action.markValues 3 (Denorm.Side.new) "member_id" true,
                 Denorm.Action.markValues 3 (Denorm.Side.old) "member_id" true] },
   { name := "denorm_after_row_insert_on_member_bookmarks",
     table := "member_bookmarks",
     event := Denorm.Event.insert,
     fields := ["member_id", "post_id"],
     ctField := none,
     ct := 3,
     actions := [Denorm.Action.markValues 3 (Denorm.Side.new) "member_id" true] },
   { name := "denorm_after_row_delete_on_member_bookmarks",
     table := "member_bookmarks",
     event := Denorm.Event.delete,
     fields := ["member_id", "post_id"],
     ctField := none,
     ct := 3,
     actions := [Denorm.Action.markValues 3 (Denorm.Side.old) "member_id" true] }]

def postgresqlTriggers : List DbTrigger :=
  [{ name := "denorm_after_row_update_on_forum",
     table := "forum",
     event := Denorm.Event.update,
     fields := ["id", "title", "titles", "tags_string", "post_count"],
     ctField := none,
     ct := 1,
     actions := [Denorm.Action.markValues 1 (Denorm.Side.new) "id" true,
                 Denorm.Action.markSelect 2 "id" "post" "forum_id" (Denorm.Side.new) "id" false] },
   { name := "denorm_after_row_insert_on_forum",
     table := "forum",
     event := Denorm.Event.insert,
     fields := ["id", "title", "titles", "tags_string", "post_count"],
     ctField := none,
     ct := 1,
     actions := [Denorm.Action.markValues 1 (Denorm.Side.new) "id" true,
                 Denorm.Action.markSelect 2 "id" "post" "forum_id" (Denorm.Side.new) "id" false] },
   { name := "denorm_after_row_update_on_post",
     table := "post",
     event := Denorm.Event.update,
     fields := ["id", "forum_id", "title", "forum_title", "cachekey"],
     ctField := none,
     ct := 1,
     actions := [Denorm.Action.markSelect 1 "forum_id" "post" "id" (Denorm.Side.new) "id" false,
                 Denorm.Action.markValues 1 (Denorm.Side.old) "forum_id" false,
                 Denorm.Action.update
                   { table := "forum",
                     col := "post_count",
                     expr := Denorm.SetExpr.plus (Denorm.Term.one),
                     key := Denorm.Key.eq "id" (Denorm.Side.new) "forum_id",
                     guards := [] },
                 Denorm.Action.update
                   { table := "forum",
                     col := "post_count",
                     expr := Denorm.SetExpr.minus (Denorm.Term.one),
                     key := Denorm.Key.eq "id" (Denorm.Side.old) "forum_id",
                     guards := [] },
                 Denorm.Action.markValues 2 (Denorm.Side.new) "id" true,
                 Denorm.Action.markSelect 3 "member_id" "member_bookmarks" "post_id" (Denorm.Side.new) "id" true] },
   { name := "denorm_after_row_insert_on_post",
     table := "post",
     event := Denorm.Event.insert,
     fields := ["id", "forum_id", "title", "forum_title", "cachekey"],
     ctField := none,
     ct := 1,
     actions := [Denorm.Action.markSelect 1 "forum_id" "post" "id" (Denorm.Side.new) "id" false,
                 Denorm.Action.update
                   { table := "forum",
                     col := "post_count",
                     expr := Denorm.SetExpr.plus (Denorm.Term.one),
                     key := Denorm.Key.eq "id" (Denorm.Side.new) "forum_id",
                     guards := [] },
                 Denorm.Action.markValues 2 (Denorm.Side.new) "id" true] },
   { name := "denorm_after_row_delete_on_post",
     table := "post",
     event := Denorm.Event.delete,
     fields := ["id", "forum_id", "title", "forum_title", "cachekey"],
     ctField := none,
     ct := 1,
     actions := [Denorm.Action.markValues 1 (Denorm.Side.old) "forum_id" false,
                 Denorm.Action.update
                   { table := "forum",
                     col := "post_count",
                     expr := Denorm.SetExpr.minus (Denorm.Term.one),
                     key := Denorm.Key.eq "id" (Denorm.Side.old) "forum_id",
                     guards := [] }] },
   { name := "denorm_after_row_update_on_tag_1",
     table := "tag",
     event := Denorm.Event.update,
     fields := ["id", "name", "content_type_id", "object_id"],
     ctField := some "content_type_id",
     ct := 1,
     actions := [Denorm.Action.markValues 1 (Denorm.Side.new) "object_id" true,
                 Denorm.Action.markValues 1 (Denorm.Side.old) "object_id" true] },
   { name := "denorm_after_row_insert_on_tag_1",
     table := "tag",
     event := Denorm.Event.insert,
     fields := ["id", "name", "content_type_id", "object_id"],
     ctField := some "content_type_id",
     ct := 1,
     actions := [Denorm.Action.markValues 1 (Denorm.Side.new) "object_id" true] },
   { name := "denorm_after_row_delete_on_tag_1",
     table := "tag",
     event := Denorm.Event.delete,
     fields := ["id", "name", "content_type_id", "object_id"],
     ctField := some "content_type_id",
     ct := 1,
     actions := [Denorm.Action.markValues 1 (Denorm.Side.old) "object_id" true] },
   { name := "denorm_after_row_delete_on_forum",
     table := "forum",
     event := Denorm.Event.delete,
     fields := ["id", "title", "titles", "tags_string", "post_count"],
     ctField := none,
     ct := 2,
     actions := [Denorm.Action.markSelect 2 "id" "post" "forum_id" (Denorm.Side.old) "id" false] },
   { name := "denorm_after_row_update_on_member",
     table := "member",
     event := Denorm.Event.update,
     fields := ["id", "name", "bookmark_titles"],
     ctField := none,
     ct := 3,
     actions := [Denorm.Action.markValues 3 (Denorm.Side.new) "id" true] },
   { name := "denorm_after_row_insert_on_member",
     table := "member",
     event := Denorm.Event.insert,
     fields := ["id", "name", "bookmark_titles"],
     ctField := none,
     ct := 3,
     actions := [Denorm.Action.markValues 3 (Denorm.Side.new) "id" true] },
   { name := "denorm_after_row_update_on_member_bookmarks",
     table := "member_bookmarks",
     event := Denorm.Event.update,
     fields := ["member_id", "post_id"],
     ctField := none,
     ct := 3,
     actions := [Denorm.Action.markValues 3 (Denorm.Side.new) "member_id" true,
                 Denorm.Action.markValues 3 (Denorm.Side.old) "member_id" true] },
   { name := "denorm_after_row_insert_on_member_bookmarks",
     table := "member_bookmarks",
     event := Denorm.Event.insert,
     fields := ["member_id", "post_id"],
     ctField := none,
     ct := 3,
     actions := [Denorm.Action.markValues 3 (Denorm.Side.new) "member_id" true] },
   { name := "denorm_after_row_delete_on_member_bookmarks",
     table := "member_bookmarks",
     event := Denorm.Event.delete,
     fields := ["member_id", "post_id"],
     ctField := none,
     ct := 3,
     actions := [Denorm.Action.markValues 3 (Denorm.Side.old) "member_id" true] }]

set_option maxRecDepth 100000

theorem sqliteTriggers_eq : installedTriggers .sqlite decls = sqliteTriggers := by decide
theorem mysqlTriggers_eq : installedTriggers .mysql decls = mysqlTriggers := by decide
theorem postgresqlTriggers_eq : installedTriggers .postgresql decls = postgresqlTriggers := by decide

/-- A database with the triggers of `decls`. -/
def engine (b : Backend) : Engine := ⟨b, match b with
  | .sqlite => sqliteTriggers
  | .mysql => mysqlTriggers
  | .postgresql => postgresqlTriggers, fun n => n⟩

theorem installed : ∀ b, Installed (engine b) decls
  | .sqlite => sqliteTriggers_eq.symm
  | .mysql => mysqlTriggers_eq.symm
  | .postgresql => postgresqlTriggers_eq.symm

end Denorm.Demo
