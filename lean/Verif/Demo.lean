import Verif.Spec.Declared
/-!
# A small project used to show that hypotheses can be met

Modelled on the models of the library's own test project (test_denorm_project/test_app/models.py): Forum, Post, Member with a
many-to-many relation to Post, and a Tag with a generic foreign key.
-/
namespace Denorm.Demo

def fld (n : String) : Field := ⟨n, n, n, true, none⟩
def fkf (n : String) (target : String) : Field := ⟨n, n ++ "_id", n ++ "_id", true, some target⟩

def tagRel : GenericRel := ⟨"tags", some "<class 'app.Tag'>", "object_id", "content_type", "tag", "id",
  ["id", "name", "content_type_id", "object_id"]⟩

def forum : Model :=
  { repr := "<class 'app.Forum'>", appLabel := "app", name := "Forum", table := "forum", pkTable := "forum", pk := "id", ct := 1,
    fields := [fld "id", fld "title", fld "titles", fld "tags_string", fld "post_count"], privates := [tagRel] }

def postForum : Field := fkf "forum" "<class 'app.Forum'>"

def post : Model :=
  { repr := "<class 'app.Post'>", appLabel := "app", name := "Post", table := "post", pkTable := "post", pk := "id", ct := 2,
    fields := [fld "id", postForum, fld "title", fld "forum_title", fld "cachekey"] }

def bookmarks : M2M := ⟨"bookmarks", "<class 'app.Post'>", "member_bookmarks", "member_id", "post_id"⟩

def member : Model :=
  { repr := "<class 'app.Member'>", appLabel := "app", name := "Member", table := "member", pkTable := "member", pk := "id", ct := 3,
    fields := [fld "id", fld "name", fld "bookmark_titles"], m2ms := [bookmarks] }

def tag : Model :=
  { repr := "<class 'app.Tag'>", appLabel := "app", name := "Tag", table := "tag", pkTable := "tag", pk := "id", ct := 4,
    fields := [fld "id", fld "name", fld "content_type_id", fld "object_id"] }

/-- Concatenates texts; anything else is ignored. -/
def concat (l : List (List Val)) : Val :=
  .text (l.foldl (fun acc o => match o with
    | [.text s] => acc ++ s
    | _ => acc) "")

def concatFn (_ : List Val) : List (List (List Val)) → Val
  | [l] => concat l
  | _ => .null

/-- `Forum.titles`: depends on `Post`, backward. -/
def titles : Callback :=
  { model := forum, field := "titles", own := [], fn := concatFn,
    deps := [⟨⟨forum, post, .backward postForum, []⟩, ["title"]⟩] }

/-- `Forum.tags_string`: depends on `Tag` through a GenericRelation. -/
def tagsString : Callback :=
  { model := forum, field := "tags_string", own := ["title"], fn := concatFn,
    deps := [⟨⟨forum, tag, .forwardM2M (.generic tagRel), []⟩, ["name"]⟩] }

/-- `Post.forum_title`: depends on `Forum`, forward. -/
def forumTitle : Callback :=
  { model := post, field := "forum_title", own := [], fn := concatFn,
    deps := [⟨⟨post, forum, .forward postForum, []⟩, ["title"]⟩] }

/-- `Member.bookmark_titles`: depends on `Post`, many-to-many. -/
def bookmarkTitles : Callback :=
  { model := member, field := "bookmark_titles", own := ["name"], fn := concatFn,
    deps := [⟨⟨member, post, .forwardM2M (.m2m bookmarks), []⟩, ["title"]⟩] }

/-- `Forum.post_count = CountField('post_set')` -/
def postCount : AggDenorm := { model := forum, fieldname := "post_count", related := post, fk := postForum, agg := .count }

/-- `Post.cachekey = CacheKeyField()`, `cachekey.depend_on_related('Forum')` -/
def cacheKey : Denorm := .cacheKey post "cachekey" [⟨post, forum, .forward postForum, []⟩]

def decls : List Denorm :=
  [titles.denorm, tagsString.denorm, .aggregate postCount, forumTitle.denorm, bookmarkTitles.denorm]

def row (l : List (Col × Val)) : Row := fun c => (l.lookup c).getD .null

def frow (id : Int) (title titles tags : String) (n : Int) : Row :=
  row [("id", .int id), ("title", .text title), ("titles", .text titles), ("tags_string", .text tags), ("post_count", .int n)]
def prow (id forum : Int) (title forumTitle : String) (key : Int) : Row :=
  row [("id", .int id), ("forum_id", .int forum), ("title", .text title), ("forum_title", .text forumTitle),
    ("cachekey", .int key)]
def mrow (id : Int) (name b : String) : Row := row [("id", .int id), ("name", .text name), ("bookmark_titles", .text b)]
def brow (id m p : Int) : Row := row [("id", .int id), ("member_id", .int m), ("post_id", .int p)]
def trow (id : Int) (name : String) (ct oid : Int) : Row :=
  row [("id", .int id), ("name", .text name), ("content_type_id", .int ct), ("object_id", .int oid)]

/-- A consistent database: two forums, two posts, a member with a bookmark, a tag. -/
def db : Db :=
  ⟨fun t =>
    if t = "forum" then [frow 1 "A" "xy" "t" 2, frow 2 "B" "" "" 0]
    else if t = "post" then [prow 1 1 "x" "A" 0, prow 2 1 "y" "A" 0]
    else if t = "member" then [mrow 1 "m" "x"]
    else if t = "member_bookmarks" then [brow 1 1 1]
    else if t = "tag" then [trow 1 "t" 1 1]
    else [], [], 0⟩

end Denorm.Demo
