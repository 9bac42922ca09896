import Verif.Code.Session
/-!
# flush() in a transaction that reads from a snapshot (MySQL, REPEATABLE READ)

`denorm_daemon` calls flush() with autocommit switched off and commits when flush() has returned (management/commands/denorm_daemon.py:14-21, 73-97), so a whole flush() is one
transaction; so is a flush() inside `atomic()`. With MySQL's default level REPEATABLE READ, which Django used until 2.0, the queries of such a transaction see the state at
the time of its first query, with its own changes. UPDATE, INSERT and DELETE, and the triggers they run, act on what is committed. A marker that another session has
deleted stays visible: a DELETE does not find it.

The steps are those of `App.flushStep` (denorms.py:593-635). Simplifications: a row written by flush() looks as if the statement had been executed on the snapshot; locks
are left out (the schedule gives the order in which statements get through).
-/
namespace Denorm

/-- flush() in its transaction. -/
structure SnapState where
  pc : Pc
  /-- what its queries see -/
  view : Db
  /-- markers of the snapshot that other sessions have deleted meanwhile -/
  ghosts : List Mark
  /-- what is committed, and what the transaction has written -/
  db : Db

/-- The result of a query is that on this database. -/
def SnapState.seen (st : SnapState) : Db := { st.view with dirty := st.ghosts ++ st.view.dirty }

/-- The first query takes the snapshot. -/
def SnapState.start (db : Db) : SnapState := ⟨.check, db, [], db⟩

/-- flush() executes a statement: on what is committed. It sees the rows it has written, and the markers inserted by the triggers. -/
def App.snapWrite (A : App) (s : Stmt) (next : Pc) (st : SnapState) : SnapState :=
  match A.exec s st.db with
  | .error e => { st with pc := .failed e }
  | .ok db' =>
    let written := match A.exec s st.view with
      | .ok v => v
      | .error _ => st.view
    { st with pc := next, view := { written with dirty := st.view.dirty ++ db'.dirty.drop st.db.dirty.length }, db := db' }

/-- The next access of flush() to the database (denorms.py:593-635). -/
def App.snapStep (A : App) (st : SnapState) : SnapState :=
  match st.pc with
  | .saving m om mem [] ms =>
    if (st.db.rows om.model.table).any (isRowOf om.model (mem om.model.pk)) then A.snapWrite (saveUpdate om mem) (.deleting m ms) st
    else { st with pc := .inserting m om mem om.saved ms }
  | .inserting m om mem [] ms => A.snapWrite (.insert om.model.table [mem]) (.deleting m ms) st
  | .deleting m ms => { st with pc := .loop ms, view := st.view.dropMarks m, db := st.db.dropMarks m }
  | pc => { st with pc := (A.flushStep pc st.seen).1 }

/-- What happens next: flush() goes on, or another session commits a statement, or a flush() of another process has handled a marker (denorms.py:629-635). -/
inductive SnapTurn where
  | flush
  | other (s : Stmt)
  | handled (m : Mark)

def App.snapTurn (A : App) : SnapTurn → SnapState → SnapState
  | .flush, st => A.snapStep st
  | .other s, st =>
    match A.exec s st.db with
    | .ok db' => { st with db := db' }
    | .error _ => st
  | .handled m, st =>
    match A.flushOne m st.db with
    | .ok db' => { st with
        db := db'
        view := st.view.dropMarks m
        ghosts := st.ghosts ++ st.view.dirty.filter fun n => decide (n = m) }
    | .error _ => st

/-- A schedule, from the first query of flush() on. -/
def App.snapTurns (A : App) : List SnapTurn → SnapState → SnapState
  | [], st => st
  | t :: ts, st => A.snapTurns ts (A.snapTurn t st)

end Denorm
