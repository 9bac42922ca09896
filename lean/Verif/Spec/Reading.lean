import Verif.Spec.Acyclic
/-!
# However the markers are read
-/
namespace Denorm

/-- flush() has taken `db` to `db'` by handling some markers one after the other, whichever they were, until there was none left in the table. -/
inductive App.Handles (A : App) : Db → Db → Prop where
  | done {db} : db.dirty = [] → App.Handles A db db
  | next {m db db1 db'} : A.flushOne m db = .ok db1 → App.Handles A db1 db' → App.Handles A db db'

/-- `x` is the state of the database at some moment while markers are handled one after the other, whichever they are. -/
inductive App.Meanwhile (A : App) : Db → Db → Prop where
  | now (db) : App.Meanwhile A db db
  /-- after save(), before the markers are deleted -/
  | saved {m db db1} : A.saveObject m db = .ok db1 → App.Meanwhile A db db1
  | next {m db db1 x} : A.flushOne m db = .ok db1 → App.Meanwhile A db1 x → App.Meanwhile A db x

/-- A portion of markers has been read from the table, in any order and of any size, and handled. -/
def App.Portion (A : App) (db db' : Db) : Prop := ∃ ms, ms ≠ [] ∧ (∀ m ∈ ms, m ∈ db.dirty) ∧ A.flushList ms db = .ok db'

end Denorm
