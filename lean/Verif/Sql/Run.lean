import Verif.Sql.Text
import Verif.Code.CondText
/-!
# A database that runs the triggers it has read

The same steps as in `Sql/Db.lean`, for triggers that are texts: whether a trigger runs for a change is decided by the expression that its condition is read as.
-/
namespace Denorm

/-- The database's triggers as it has read them. -/
structure TextDb where
  backend : Backend
  triggers : List ReadTrigger
  rand : Nat → Int

/-- The condition is an expression that is TRUE for the change, or there is none. -/
def ReadTrigger.Runs (r : ReadTrigger) (ch : Change) : Prop :=
  match r.cond with
  | none => True
  | some ts => ∃ e, Parses ts e ∧ e.eval ch = some true

open Classical in
/-- The trigger is run for this change at this point. -/
noncomputable def TextDb.enters (X : TextDb) (fr : Frame) (ch : Change) (r : ReadTrigger) : Bool :=
  decide (r.table = ch.table) && decide (r.event = ch.event) && decide (r.Runs ch) && !(decide (X.backend = .sqlite) && decide (r.name ∈ fr.trigs))

/-- The actions to run for one row change. -/
noncomputable def TextDb.fired (X : TextDb) (fr : Frame) (ch : Change) : List Item :=
  (X.triggers.filter (X.enters fr ch)).flatMap fun r => r.actions.map (.act ⟨r.name :: fr.trigs, ch.table :: fr.tables⟩ ch)

/-- The rows a statement writes do not depend on triggers. -/
def TextDb.plain (X : TextDb) : Engine := ⟨X.backend, [], X.rand⟩

/-- Carries out one item. -/
noncomputable def TextDb.step (X : TextDb) : Item → Db → Except DbErr (List Item × Db)
  | .write fr t ops, db => .ok ((applyOps X.plain t ops db).2.flatMap (X.fired fr), (applyOps X.plain t ops db).1)
  | .act fr ch a, db => X.plain.step (.act fr ch a) db

/-- Works until nothing is left to do. -/
noncomputable def TextDb.drain (X : TextDb) : Nat → List Item → Db → Except DbErr Db
  | _, [], db => .ok db
  | 0, _ :: _, _ => .error .depth
  | n + 1, it :: W, db =>
    match X.step it db with
    | .ok (new, db') => X.drain n (new ++ W) db'
    | .error e => .error e

/-- Executes a statement. -/
noncomputable def TextDb.exec (X : TextDb) (fuel : Nat) (s : Stmt) (db : Db) : Except DbErr Db :=
  X.drain fuel (writes X.backend .top s.table (s.ops db)) db

/-- Executes a history of statements; a failing statement is rolled back. -/
noncomputable def TextDb.run (X : TextDb) (fuel : Nat) : List Stmt → Db → Db
  | [], db => db
  | s :: ss, db =>
    match X.exec fuel s db with
    | .ok db' => X.run fuel ss db'
    | .error _ => X.run fuel ss db

/-- Reads CREATE TRIGGER statements; `none`: one of them is not SQL. -/
def readTexts (D : Dialect) (texts : List String) : Option (List ReadTrigger) := texts.mapM fun t => parseTrigger D (lex D.backend t)

end Denorm
