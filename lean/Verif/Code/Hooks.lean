import Verif.Code.Orm
/-!
# flush() and what models define themselves

A model class may define `__bool__` or `__len__`, and its save(), a callback or a receiver of a signal may raise an exception.
-/
namespace Denorm

/-- What the project's own code does with an instance of `om` loaded as `r`.
* `truth`: `bool(instance)`,
* `raises`: `instance.save()` raises an exception before anything is written (the model's save(), a callback, a receiver of `pre_save`),
* `late`: it raises one after the row has been written (a receiver of `post_save`): Django keeps what was written. -/
structure Hooks where
  truth : Db → OrmModel → Row → Bool
  raises : Db → OrmModel → Row → Bool
  late : Db → OrmModel → Row → Bool

/-- How a call of flush() has ended. -/
inductive Outcome where
  | returned
  /-- an exception has left flush() -/
  | raised
  /-- still running after the given number of passes -/
  | running
deriving DecidableEq, Repr

/-- One round of the inner loop (denorms.py:625-635), with the database it leaves behind; `true`: an exception. Every statement is committed
on its own (autocommit). -/
def App.flushOneWith (A : App) (H : Hooks) (m : Mark) (db : Db) : Db × Bool :=
  match A.contentObject db m with
  | .error _ => (db, true)
  | .ok none => (db.dropMarks m, false)
  | .ok (some (om, r)) =>
    -- `if dirty_instance.content_object:` (denorms.py:629)
    if H.truth db om r then
      -- `dirty_instance.content_object.save()` (denorms.py:630)
      if H.raises db om r then (db, true)
      else match A.save om r db with
        | .ok (db', _) => if H.late db om r then (db', true) else (db'.dropMarks m, false)
        | .error _ => (db, true)
    else (db.dropMarks m, false)

/-- The inner loop: an exception ends it (denorms.py has no handler). -/
def App.flushListWith (A : App) (H : Hooks) : List Mark → Db → Db × Bool
  | [], db => (db, false)
  | m :: ms, db =>
    match A.flushOneWith H m db with
    | (db', false) => A.flushListWith H ms db'
    | (db', true) => (db', true)

/-- `flush()` (denorms.py:593-635). -/
def App.flushWith (A : App) (H : Hooks) : Nat → Db → Db × Outcome
  | n, db =>
    if db.dirty = [] then (db, .returned)
    else match n with
      | 0 => (db, .running)
      | n + 1 =>
        match A.flushListWith H (A.snapshot db) db with
        | (db', false) => A.flushWith H n db'
        | (db', true) => (db', .raised)

/-- `k` calls of flush(), one after the other. -/
def App.callsWith (A : App) (H : Hooks) (n : Nat) : Nat → Db → Db
  | 0, db => db
  | k + 1, db => A.callsWith H n k (A.flushWith H n db).1

end Denorm
