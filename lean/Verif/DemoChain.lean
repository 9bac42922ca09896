import Verif.DemoApp
/-!
# A chain of dependencies, small enough to evaluate whole flushes

Blog(title); Entry(blog, label), where `label` depends on `Blog`; Comment(entry, path), where `path` depends on `Entry` and reads its
`label`.
-/
namespace Denorm.Chain
open Demo (fld fkf row)
set_option maxRecDepth 100000

def blog : Model :=
  { repr := "<class 'chain.Blog'>", appLabel := "chain", name := "Blog", table := "blog", pkTable := "blog", pk := "id", ct := 11,
    fields := [fld "id", fld "title"] }
def entryBlog : Field := fkf "blog" "<class 'chain.Blog'>"
def entry : Model :=
  { repr := "<class 'chain.Entry'>", appLabel := "chain", name := "Entry", table := "entry", pkTable := "entry", pk := "id", ct := 12,
    fields := [fld "id", entryBlog, fld "label"] }
def commentEntry : Field := fkf "entry" "<class 'chain.Entry'>"
def comment : Model :=
  { repr := "<class 'chain.Comment'>", appLabel := "chain", name := "Comment", table := "comment", pkTable := "comment", pk := "id",
    ct := 13, fields := [fld "id", commentEntry, fld "path"] }

def labelDep : DepRead := ⟨⟨entry, blog, .forward entryBlog, []⟩, ["title"]⟩
def pathDep : DepRead := ⟨⟨comment, entry, .forward commentEntry, []⟩, ["label"]⟩
def label : Callback := { model := entry, field := "label", own := [], fn := Demo.concatFn, deps := [labelDep] }
def path : Callback := { model := comment, field := "path", own := [], fn := Demo.concatFn, deps := [pathDep] }

def decls : List Denorm := [label.denorm, path.denorm]
def engine (b : Backend) : Engine := ⟨b, installedTriggers b decls, fun _ => 0⟩

def blogOrm : OrmModel := ⟨blog, [⟨"title", .plain⟩]⟩
def entryOrm : OrmModel := ⟨entry, [⟨"blog_id", .plain⟩, ⟨"label", .callback label⟩]⟩
def commentOrm : OrmModel := ⟨comment, [⟨"entry_id", .plain⟩, ⟨"path", .callback path⟩]⟩

/-- `arrange` is the order in which the database returns markers. -/
def app (b : Backend) (arrange : List Mark → List Mark := fun l => l) : App :=
  ⟨engine b, [blogOrm, entryOrm, commentOrm], arrange, fun db _ _ => db.draws, 100⟩

def blrow (id : Int) (t : String) : Row := row [("id", .int id), ("title", .text t)]
def erow (id blog : Int) (l : String) : Row := row [("id", .int id), ("blog_id", .int blog), ("label", .text l)]
def crow (id entry : Int) (p : String) : Row := row [("id", .int id), ("entry_id", .int entry), ("path", .text p)]

/-- A consistent database. -/
def db : Db :=
  ⟨fun t => if t = "blog" then [blrow 1 "A"] else if t = "entry" then [erow 1 1 "A"] else if t = "comment" then [crow 1 1 "A"] else [], [], 0⟩

/-- The blog was renamed: the entry is marked (twice), the comment is not out of date yet; and there is a marker without a target. -/
def staleDb : Db :=
  ⟨fun t => if t = "blog" then [blrow 1 "Z"] else if t = "entry" then [erow 1 1 "A"] else if t = "comment" then [crow 1 1 "A"] else [],
    [⟨12, .int 1⟩, ⟨13, .int 7⟩, ⟨12, .int 1⟩], 0⟩

theorem agree : ∀ b, AgreeOnWatch b decls
  | .sqlite => by decide
  | .mysql => by decide
  | .postgresql => by decide

theorem noUpdates (b : Backend) : ∀ tr ∈ (engine b).triggers, tr.updates = [] := by cases b <;> decide

theorem noReentry (b : Backend) : NoReentry (engine b) :=
  noReentry_of (fun _ => 0) (fun tr htr u hu => by simp [noUpdates b tr htr] at hu)

theorem not_reached (b : Backend) {om : OrmModel} {t : TableName} {c : Col} : ¬ Reached (engine b) om t c := by
  intro h
  cases h with
  | direct htr _ _ _ hu => have := DbTrigger.mem_updates.2 hu; simp [noUpdates b _ htr] at this
  | next _ htr _ _ _ hu => have := DbTrigger.mem_updates.2 hu; simp [noUpdates b _ htr] at this

theorem wd_label (b : Backend) : WellDeclared b decls label where
  declared := by simp [decls]
  agree := fun _ hg => covered_of_agree (agree b) (List.mem_flatMap.2 ⟨_, by decide, hg⟩)
  table := by decide
  own := by decide
  this := by decide
  watched := by decide
  keys := by decide
  links := by decide

theorem wd_path (b : Backend) : WellDeclared b decls path where
  declared := by simp [decls]
  agree := fun _ hg => covered_of_agree (agree b) (List.mem_flatMap.2 ⟨_, by decide, hg⟩)
  table := by decide
  own := by decide
  this := by decide
  watched := by decide
  keys := by decide
  links := by decide

theorem keysSafe (b : Backend) (arr : List Mark → List Mark) : KeysSafe (app b arr) where
  kept := by cases b <;> simp only [app] <;> decide
  free := fun _ _ _ _ h => not_reached b h

theorem flushable_label (b : Backend) (arr : List Mark → List Mark) (db : Db) : Flushable (app b arr) decls entryOrm label db where
  installed := rfl
  declared := wd_label b
  noReentry := noReentry b
  found := by cases b <;> rfl
  model := rfl
  cols := by decide
  order := ⟨[⟨"blog_id", .plain⟩], [], rfl, by decide⟩
  own := fun _ _ h => not_reached b h
  deps := by
    intro d hd
    simp only [label, List.mem_singleton] at hd
    subst hd
    exact ⟨fun _ _ h => not_reached b h, .inl (by decide)⟩
  pks := by cases b <;> simp only [app] <;> decide
  safe := keysSafe b arr

theorem flushable_path (b : Backend) (arr : List Mark → List Mark) (db : Db) : Flushable (app b arr) decls commentOrm path db where
  installed := rfl
  declared := wd_path b
  noReentry := noReentry b
  found := by cases b <;> rfl
  model := rfl
  cols := by decide
  order := ⟨[⟨"entry_id", .plain⟩], [], rfl, by decide⟩
  own := fun _ _ h => not_reached b h
  deps := by
    intro d hd
    simp only [path, List.mem_singleton] at hd
    subst hd
    exact ⟨fun _ _ h => not_reached b h, .inl (by decide)⟩
  pks := by cases b <;> simp only [app] <;> decide
  safe := keysSafe b arr

end Denorm.Chain
