import Verif.Sql.Db
/-!
# Foreign keys that delete or clear rows in the database itself
`FOREIGN KEY .. ON DELETE CASCADE` and `ON DELETE SET NULL`, written by hand, by another program or by Django's `db_on_delete`, and what the
triggers of `/repo` see of it.
-/
namespace Denorm

inductive RefAction where
  | cascade
  | setNull
deriving DecidableEq, Repr

/-- A foreign key constraint: column `col` of `table` refers to the column `key` of `target`. -/
structure ForeignRef where
  table : TableName
  col : Col
  target : TableName
  key : Col
  action : RefAction
deriving DecidableEq, Repr

/-- Row `r` refers to the row `o` that was deleted. -/
def ForeignRef.points (f : ForeignRef) (o r : Row) : Bool := Val.sqlEq (r f.col) (o f.key)

/-- The rows the constraint writes when `o` is deleted. -/
def ForeignRef.ops (f : ForeignRef) (o : Row) (db : Db) : List RowOp :=
  match f.action with
  | .cascade => (targetsOf (db.rows f.table) (f.points o)).map fun _ => .del (f.points o)
  | .setNull => (targetsOf (db.rows f.table) (f.points o)).map fun i => .upd i fun _ r => r.set f.col .null

/-- What is left to do within a DELETE. -/
inductive Todo where
  /-- write these rows -/
  | rows (t : TableName) (ops : List RowOp)
  /-- carry out the constraint for a row that was deleted -/
  | refer (f : ForeignRef) (o : Row)
  /-- run the triggers of a row that was written -/
  | fire (ch : Change)

/-- What follows the change of a row: first the constraints, then the triggers of `/repo`. PostgreSQL runs AFTER triggers in the order of
their names, and those of constraints are called `RI_ConstraintTrigger_..`, which comes before `denorm_..`
(`denorm/db/postgresql/triggers.py:120-131`); sqlite carries out the constraints before AFTER triggers. -/
def follow (fs : List ForeignRef) (ch : Change) : List Todo :=
  (if ch.event = .delete then (fs.filter fun f => decide (f.target = ch.table)).map (.refer · ch.old) else []) ++ [.fire ch]

/-- PostgreSQL writes all rows of a statement first (`writes`). -/
def todos (b : Backend) (t : TableName) (ops : List RowOp) : List Todo :=
  match b with
  | .postgresql => [.rows t ops]
  | _ => ops.map fun op => .rows t [op]

/-- Works until nothing is left to do. In PostgreSQL and sqlite what a constraint does is like a statement of its own, with triggers
(`denorm/db/postgresql/triggers.py:120-131`, `denorm/db/sqlite3/triggers.py:100-106`: `AFTER DELETE .. FOR EACH ROW`). -/
def Engine.chain (E : Engine) (fs : List ForeignRef) (fuel : Nat) : Nat → List Todo → Db → Except DbErr Db
  | _, [], db => .ok db
  | 0, _ :: _, _ => .error .depth
  | n + 1, .rows t ops :: T, db => E.chain fs fuel n ((applyOps E t ops db).2.flatMap (follow fs) ++ T) (applyOps E t ops db).1
  | n + 1, .refer f o :: T, db => E.chain fs fuel n (todos E.backend f.table (f.ops o db) ++ T) db
  | n + 1, .fire ch :: T, db =>
    match E.drain fuel (E.fired .top ch) db with
    | .ok db' => E.chain fs fuel n T db'
    | .error e => .error e

/-- What InnoDB does when row `o` of table `t` is deleted: "cascaded foreign key actions do not activate triggers" (MySQL manual). The
first argument is the number of levels, of which InnoDB allows 15. -/
def Db.sweep (fs : List ForeignRef) : Nat → TableName → Row → Db → Db
  | 0, _, _, db => db
  | n + 1, t, o, db => (fs.filter fun f => decide (f.target = t)).foldl (fun db f =>
      match f.action with
      | .cascade => ((db.rows f.table).filter (f.points o)).foldl (fun db r => Db.sweep fs n f.table r db)
          (db.setRows f.table ((db.rows f.table).filter fun r => !f.points o r))
      | .setNull => db.setRows f.table ((db.rows f.table).map fun r => if f.points o r then r.set f.col .null else r)) db

/-- The rows of a DELETE on MySQL. -/
def Engine.sweepRows (E : Engine) (fs : List ForeignRef) (fuel : Nat) (t : TableName) : List RowOp → Db → Except DbErr Db
  | [], db => .ok db
  | op :: ops, db =>
    match E.drain fuel ((applyOp E t op db).2.flatMap (E.fired .top))
        ((applyOp E t op db).2.foldl (fun db ch => Db.sweep fs 15 t ch.old db) (applyOp E t op db).1) with
    | .ok db' => E.sweepRows fs fuel t ops db'
    | .error e => .error e

/-- Executes a statement on a database with such constraints. (Only DELETE is subject to them: keys are not updated.) -/
def Engine.execRefs (E : Engine) (fs : List ForeignRef) (fuel : Nat) (s : Stmt) (db : Db) : Except DbErr Db :=
  match s with
  | .delete t w =>
    match E.backend with
    | .mysql => E.sweepRows fs fuel t ((Stmt.delete t w).ops db) db
    | _ => E.chain fs fuel fuel (todos E.backend t ((Stmt.delete t w).ops db)) db
  | s => E.exec fuel s db

/-- Executes a history. A failing statement is rolled back and the session goes on. -/
def Engine.runRefs (E : Engine) (fs : List ForeignRef) (fuel : Nat) : List Stmt → Db → Db
  | [], db => db
  | s :: ss, db =>
    match E.execRefs fs fuel s db with
    | .ok db' => E.runRefs fs fuel ss db'
    | .error _ => E.runRefs fs fuel ss db

end Denorm
