import Verif.Code.Session
/-!
# Several flush() at the same time, and other sessions

Nothing in denorms.py:593-635 keeps two processes (the daemon, the middleware, `denorm_flush`) from running flush() at the same time; there is no
lock and no enclosing transaction. The processes share the database and nothing else. Each step is one access of one of them to the database, see
`App.flushStep`.
-/
namespace Denorm

/-- What happens next: some process calls flush(), or the i-th call goes on, or another session commits a statement. -/
inductive CrewTurn where
  | call
  | step (i : Nat)
  | other (s : Stmt)

/-- The calls of flush() so far, in the order in which they started, and the database. -/
def App.crewTurn (A : App) : CrewTurn → List Pc × Db → List Pc × Db
  | .call, st => (st.1 ++ [.check], st.2)
  | .step i, st =>
    match st.1[i]? with
    | none => st
    | some pc => (st.1.set i (A.flushStep pc st.2).1, (A.flushStep pc st.2).2)
  | .other s, st =>
    match A.exec s st.2 with
    | .ok db' => (st.1, db')
    | .error _ => st

/-- A schedule. -/
def App.crewTurns (A : App) : List CrewTurn → List Pc × Db → List Pc × Db
  | [], st => st
  | t :: ts, st => A.crewTurns ts (A.crewTurn t st)

end Denorm
