import Verif.Code.Calls
import Verif.Code.Hooks
import Verif.Spec.Returns
/-!
# Programs with `atomic()` blocks, exceptions and flush()

One session. `with atomic():` takes back what its block has done when the block is left by an exception, which goes on from there (django/db/transaction.py, `Atomic`); the rows
that triggers have written (db/*/triggers.py) and those that flush() has saved and deleted (denorms.py:593-635) are taken back with the rest. Outside of such blocks every call is
committed at once. Simplifications: after an exception that is caught within a block the transaction goes on (PostgreSQL refuses to go on: there, this is a program that raises again); a flush() that
does not return within its limits ends what we say about the program (`stuck`).
-/
namespace Denorm

inductive Script where
  | skip
  /-- a call of the ORM; if it raises, so does the program -/
  | call (c : OrmCall)
  /-- several calls, the exceptions of which are caught -/
  | calls (cs : List OrmCall)
  /-- `denorm.flush()`, with limits on trigger recursion and passes -/
  | flush (n k : Nat)
  /-- the same, with what the project's own code does meanwhile: it may raise -/
  | flushWith (H : Hooks) (n k : Nat)
  | raise
  | seq (s t : Script)
  /-- `with atomic(): s` -/
  | atomic (s : Script)
  /-- `try: s` `except Exception: t` -/
  | handle (s t : Script)

/-- How a program ends, and the database then. -/
inductive Ending where
  | done (db : Db)
  | raised (db : Db)
  | stuck

/-- Execute a program. -/
def App.script (A : App) : Script → Db → Ending
  | .skip, db => .done db
  | .call c, db =>
    match A.call db c with
    | .ok db' => .done db'
    | .error _ => .raised db
  | .calls cs, db => .done (A.calls cs db)
  | .flush n k, db =>
    match (A.limit n).flush k db with
    | .ok (some db') => .done db'
    | _ => .stuck
  | .flushWith H n k, db =>
    match (A.limit n).flushWith H k db with
    | (db', .returned) => .done db'
    | (db', .raised) => .raised db'
    | (_, .running) => .stuck
  | .raise, db => .raised db
  | .seq s t, db =>
    match A.script s db with
    | .done db' => A.script t db'
    | e => e
  | .atomic s, db =>
    match A.script s db with
    | .raised _ => .raised db
    | e => e
  | .handle s t, db =>
    match A.script s db with
    | .raised db' => A.script t db'
    | e => e

end Denorm
