import Verif.Code.Orm
import Verif.Spec.Affected
/-!
# Transactions of several sessions (READ COMMITTED)

Django puts save(), delete() and every `atomic()` block into a transaction; the triggers run inside of it, so the rows they write in `denorm_dirtyinstance` become visible
to flush() together with the changes that caused them (db/*/triggers.py; denorms.py:593-635 reads the table with an ordinary query).

A session that has written something keeps what it sees (`view`) and the committed state its view was built on (`base`). A statement sees what is committed when it
starts, plus the session's own changes; a commit brings the session's own changes into the committed state. Simplifications: a failing statement is undone and the transaction
goes on; no deadlocks (a move that has to wait is no move at all: the schedule gives the order in which statements get through); savepoints are left out.
-/
namespace Denorm

/-- The primary key column of each table, and its foreign key constraints: column and table referred to. -/
structure Schema where
  key : TableName → Col
  refs : TableName → List (Col × TableName)

/-- The row with key `κ`. -/
def rowOf (kc : Col) (κ : Val) (rs : List Row) : Option Row := rs.find? fun r => decide (r kc = κ)

/-- The row `r`, with the changes that lead from `b` to `v`. (If only one of the two sessions has written the row, this is the row as that session has left it.) -/
def mergeRow (b v r : Row) : Row := fun c => if v c = b c then r c else v c

/-- The changes that lead from `base` to `view`, made on `cur`. -/
def mergeRows (kc : Col) (base view cur : List Row) : List Row :=
  (cur.filterMap fun r =>
    match rowOf kc (r kc) base, rowOf kc (r kc) view with
    | none, _ => some r
    | some _, none => none
    | some b, some v => some (mergeRow b v r)) ++
  view.filter fun v => (rowOf kc (v kc) base).isNone

/-- The same for a whole database. Markers are only ever added by the sessions (flush() is not one of them). -/
def Db.merge (S : Schema) (base view cur : Db) : Db where
  rows t := mergeRows (S.key t) (base.rows t) (view.rows t) (cur.rows t)
  dirty := cur.dirty ++ view.dirty.drop base.dirty.length
  draws := max cur.draws view.draws

/-- The locks a transaction holds: on rows it has written, on rows it has deleted, and on rows it refers to by a foreign key constraint. -/
structure Locks where
  rows : List (TableName × Val)
  deleted : List (TableName × Val)
  refs : List (TableName × Val)

/-- No locks. -/
def Locks.free : Locks := ⟨[], [], []⟩

def Locks.append (a b : Locks) : Locks := ⟨a.rows ++ b.rows, a.deleted ++ b.deleted, a.refs ++ b.refs⟩

/-- The locks that the row changes of a statement (and of its triggers) take. A foreign key constraint is checked if the referring column changes. -/
def locksOf (S : Schema) (chs : List Change) : Locks where
  rows := chs.flatMap fun ch => ch.versions.map fun r => (ch.table, r (S.key ch.table))
  deleted := chs.flatMap fun ch => if ch.event = .delete then [(ch.table, ch.old (S.key ch.table))] else []
  refs := chs.flatMap fun ch => (S.refs ch.table).flatMap fun p =>
    if ch.event = .insert ∨ (ch.event = .update ∧ ch.old p.1 ≠ ch.new p.1) then [(p.2, ch.new p.1)] else []

/-- Whether a session that wants the locks `a` has to wait for one that holds `b`. sqlite has one writer at a time. MySQL takes a shared lock on the row that a foreign key
refers to, which excludes every writer of that row; PostgreSQL takes one that excludes only its deletion (`FOR KEY SHARE`). -/
def Locks.conflict (back : Backend) (a b : Locks) : Bool :=
  match back with
  | .sqlite => !a.rows.isEmpty && !b.rows.isEmpty
  | .mysql => (a.rows.any fun l => l ∈ b.rows || l ∈ b.refs) || a.refs.any fun l => l ∈ b.rows
  | .postgresql => (a.rows.any fun l => l ∈ b.rows) || (a.refs.any fun l => l ∈ b.deleted) || a.deleted.any fun l => l ∈ b.refs

/-- A transaction that has written something. -/
structure Txn where
  base : Db
  view : Db
  locks : Locks

/-- The committed state and the sessions; `none`: the session has written nothing since its last commit. -/
structure DbServer where
  db : Db
  sessions : List (Option Txn)

/-- What session `i` sees now, and the locks it holds. -/
def DbServer.sight (S : Schema) (X : DbServer) (i : Nat) : Db × Locks :=
  match X.sessions[i]? with
  | some (some T) => (Db.merge S T.base T.view X.db, T.locks)
  | _ => (X.db, .free)

/-- Some session other than `i` holds a lock that excludes `l`. -/
def DbServer.waits (back : Backend) (X : DbServer) (i : Option Nat) (l : Locks) : Bool :=
  (List.range X.sessions.length).any fun j => some j ≠ i && match X.sessions[j]? with
    | some (some T) => Locks.conflict back l T.locks
    | _ => false

inductive Move where
  /-- session `i` executes a statement -/
  | stmt (i : Nat) (s : Stmt)
  | commit (i : Nat)
  | rollback (i : Nat)
  /-- flush() handles one of the markers it has found: `content_object`, its save() and the deletion of the object's markers (denorms.py:629-635) -/
  | flushOne (m : Mark)

/-- The row changes of a statement. -/
def App.changesOf (A : App) (s : Stmt) (db : Db) : List Change := (A.engine.changesOf A.fuel s db).map Prod.fst

/-- The row changes made by `flushOne`. -/
def App.flushChanges (A : App) (m : Mark) (db : Db) : List Change :=
  match A.contentObject db m with
  | .ok (some (om, r)) =>
    match preSaveAll A om.model db false om.saved r with
    | .ok mem => A.changesOf (saveUpdate om mem) db
    | .error _ => []
  | _ => []

/-- The lock for the deletion of markers (any name that no other table has). -/
def markLock (m : Mark) : Locks := ⟨[("denorm_dirtyinstance", m.oid)], [], []⟩

/-- Whether `flushOne` has to wait for the locks of some session. -/
def App.flushWaits (A : App) (S : Schema) (m : Mark) (X : DbServer) : Bool :=
  X.waits A.engine.backend none ((locksOf S (A.flushChanges m X.db)).append (markLock m))

/-- One move. A statement or a save() that has to wait, or fails, has no effect. -/
def App.move (A : App) (S : Schema) (X : DbServer) : Move → DbServer
  | .stmt i s =>
    match A.exec s (X.sight S i).1 with
    | .error _ => X
    | .ok v =>
      let l := locksOf S (A.changesOf s (X.sight S i).1)
      if X.waits A.engine.backend (some i) l then X
      else if l.rows = [] then X
      else ⟨X.db, X.sessions.set i (some ⟨X.db, v, l.append (X.sight S i).2⟩)⟩
  | .commit i => ⟨(X.sight S i).1, X.sessions.set i none⟩
  | .rollback i => ⟨X.db, X.sessions.set i none⟩
  | .flushOne m =>
    if A.flushWaits S m X then X
    else match A.flushOne m X.db with
      | .ok db' => ⟨db', X.sessions⟩
      | .error _ => X

/-- A schedule. -/
def App.moves (A : App) (S : Schema) : List Move → DbServer → DbServer
  | [], X => X
  | μ :: μs, X => A.moves S μs (A.move S X μ)

end Denorm
