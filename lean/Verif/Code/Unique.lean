import Verif.Code.Orm
/-!
# Fields with `unique=True`

`@denormalized` hands its arguments on to the field class (fields.py:33-37, 98-101), so `@denormalized(models.SlugField, unique=True)` gives the column a UNIQUE constraint. All three
databases check it at the end of every row of an UPDATE, long before flush() has been through all instances. The UPDATE of save() changes one row, so this is modelled as a check of the
table that the statement leaves behind; a statement that violates the constraint is undone. NULL is no duplicate of NULL. Not modelled: `unique_together`, DEFERRABLE constraints (which
Django of this time cannot declare), collations that take different texts for the same.
-/
namespace Denorm

/-- Does the list contain a value twice? -/
def repeated : List Val → Bool
  | [] => false
  | v :: vs => (decide (v ≠ .null) && vs.contains v) || repeated vs

/-- Does the column contain a value twice? -/
def Db.repeats (db : Db) (t : TableName) (c : Col) : Bool := repeated ((db.rows t).map fun r => r c)

/-- What becomes of a call of flush() (as `Outcome`). -/
inductive UniqueOutcome where
  | returned
  /-- still running after the given number of passes -/
  | running
  /-- an exception other than the next one has left flush() -/
  | raised (e : OrmErr)
  /-- IntegrityError: UNIQUE constraint failed -/
  | integrity
deriving DecidableEq, Repr

/-- `if dirty_instance.content_object: dirty_instance.content_object.save()` (denorms.py:629-630) where the columns `U` are unique. -/
def App.saveObjectUnique (A : App) (U : List (TableName × Col)) (m : Mark) (db : Db) : Except UniqueOutcome Db :=
  match A.saveObject m db with
  | .ok db' => if U.any (fun p => db'.repeats p.1 p.2) then .error .integrity else .ok db'
  | .error e => .error (.raised e)

/-- The inner loop over a list of markers (denorms.py:625-635), with the database it leaves behind: every statement is committed on its own
(autocommit). -/
def App.flushListUnique (A : App) (U : List (TableName × Col)) : List Mark → Db → Db × Option UniqueOutcome
  | [], db => (db, none)
  | m :: ms, db =>
    match A.saveObjectUnique U m db with
    | .ok db' => A.flushListUnique U ms (db'.dropMarks m)
    | .error o => (db, some o)

/-- `flush()` (denorms.py:593-635), with the database it leaves behind. -/
def App.flushUnique (A : App) (U : List (TableName × Col)) : Nat → Db → Db × UniqueOutcome
  | n, db =>
    if db.dirty = [] then (db, .returned)
    else match n with
      | 0 => (db, .running)
      | n + 1 =>
        match A.flushListUnique U (A.snapshot db) db with
        | (db', none) => A.flushUnique U n db'
        | (db', some o) => (db', o)

/-- `k` calls of flush(), one after the other, each with the database that the one before has left behind. -/
def App.callsUnique (A : App) (U : List (TableName × Col)) (n : Nat) : Nat → Db → Db
  | 0, db => db
  | k + 1, db => A.callsUnique U n k (A.flushUnique U n db).1

end Denorm
