import Verif.Spec.Flush
/-!
# Observing flush

The database states that exist while flush runs (each save() and each DELETE is committed on its own), and the save() calls it makes.
-/
namespace Denorm

/-- `x` is the state of the database at some moment of the inner loop over the markers `ms`, started in the given state. -/
inductive App.During (A : App) : List Mark → Db → Db → Prop where
  | now (ms db) : App.During A ms db db
  /-- after save(), before the markers are deleted -/
  | saved {m ms db db1} : A.saveObject m db = .ok db1 → App.During A (m :: ms) db db1
  | next {m ms db db1 x} : A.flushOne m db = .ok db1 → App.During A ms db1 x → App.During A (m :: ms) db x

/-- `x` is the state of the database at some moment of a flush() started in the given state. -/
inductive App.Visits (A : App) : Db → Db → Prop where
  | inPass {db x} : A.During (A.snapshot db) db x → App.Visits A db x
  | next {db db1 x} : db.dirty ≠ [] → A.pass db = .ok db1 → App.Visits A db1 x → App.Visits A db x

/-- The markers for which the inner loop over `ms` calls save(), in order. -/
def App.savedIn (A : App) : List Mark → Db → List Mark
  | [], _ => []
  | m :: ms, db =>
    (match A.contentObject db m with
      | .ok (some _) => [m]
      | _ => []) ++
    match A.flushOne m db with
    | .ok db' => A.savedIn ms db'
    | .error _ => []

/-- The markers for which flush() calls save() during its first `n` passes, in order. -/
def App.flushSaves (A : App) : Nat → Db → List Mark
  | 0, _ => []
  | n + 1, db =>
    if db.dirty = [] then []
    else A.savedIn (A.snapshot db) db ++
      match A.pass db with
      | .ok db' => A.flushSaves n db'
      | .error _ => []

/-- The marker's instance exists. -/
def App.HasTarget (A : App) (db : Db) (m : Mark) : Prop :=
  ∃ om, A.models.find? (fun om => om.model.ct == m.ct) = some om ∧ ∃ r ∈ db.rows om.model.table, r om.model.pk = m.oid ∧ m.oid ≠ .null

/-- The marker belongs to an existing model, but there is no such instance (any more), or its object id is NULL. -/
def App.NoTarget (A : App) (db : Db) (m : Mark) : Prop :=
  ∃ om, A.models.find? (fun om => om.model.ct == m.ct) = some om ∧ (m.oid = .null ∨ ∀ r ∈ db.rows om.model.table, r om.model.pk ≠ m.oid)

end Denorm
