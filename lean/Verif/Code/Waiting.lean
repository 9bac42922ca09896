import Verif.Code.Transactions
/-!
# Sessions that wait for each other

`Code/Transactions.lean` says which locks exclude each other, with whole statements as steps. Here locks are taken one by one, in the order in which a statement and the
triggers it fires write rows, because that order decides whether sessions can come to wait for each other in a circle. The database then aborts one of them
("deadlock detected", error 1213 in MySQL): a statement that is correct by itself fails.

Simplifications: the rows that a statement wants are those of the state it started in (what other sessions commit while it waits does not change them); a session waits only for
locks that are held, not for others that wait in front of it; isolation level READ COMMITTED, where the SELECT of a marker action takes no locks; new rows in
`denorm_dirtyinstance` exclude nobody (migrations/0001_initial.py: no unique index).
-/
namespace Denorm

/-- What a lock on a row excludes. -/
inductive LockMode where
  /-- PostgreSQL's `FOR KEY SHARE`: taken on the row that a foreign key refers to -/
  | key
  /-- MySQL's shared lock: taken on the row that a foreign key refers to -/
  | share
  /-- the row is inserted or updated -/
  | write
  /-- the row is deleted -/
  | delete
deriving DecidableEq, Repr

/-- Whether two locks on the same row, of different sessions, exclude each other (PostgreSQL manual, table 13.3; InnoDB's S and X). -/
def LockMode.excludes : LockMode → LockMode → Bool
  | .key, .delete => true
  | .delete, .key => true
  | .share, .write => true
  | .share, .delete => true
  | .write, .share => true
  | .delete, .share => true
  | .write, .write => true
  | .write, .delete => true
  | .delete, .write => true
  | .delete, .delete => true
  | _, _ => false

/-- A lock on the row of a table with a given primary key. -/
structure Lock where
  table : TableName
  key : Val
  mode : LockMode
deriving DecidableEq, Repr

def Lock.conflict (a b : Lock) : Bool := decide (a.table = b.table) && decide (a.key = b.key) && a.mode.excludes b.mode

/-- The locks for the foreign key constraints of a written row: on the rows it refers to, if it is new or the reference changes. -/
def Change.referred (S : Schema) (back : Backend) (ch : Change) : List Lock :=
  (S.refs ch.table).filterMap fun p =>
    if ch.new p.1 ≠ .null ∧ (ch.event = .insert ∨ (ch.event = .update ∧ ch.old p.1 ≠ ch.new p.1)) then
      some ⟨p.2, ch.new p.1, if back = .mysql then .share else .key⟩
    else none

/-- The locks needed to write one row, in the order in which they are taken: the row itself, then the rows it refers to. The triggers of django-denorm run after
that: in InnoDB constraints are checked while the row is written; in PostgreSQL by triggers whose names begin with `RI_`, which sort before `denorm_` (AFTER ROW
triggers fire in the order of their names). -/
def Change.locks (S : Schema) (back : Backend) (ch : Change) : List Lock :=
  match ch.event with
  | .insert => ⟨ch.table, ch.new (S.key ch.table), .write⟩ :: ch.referred S back
  | .update => ⟨ch.table, ch.old (S.key ch.table), .write⟩ :: ch.referred S back
  | .delete => [⟨ch.table, ch.old (S.key ch.table), .delete⟩]

/-- The lock on a whole sqlite database: one writer at a time. -/
def wholeDatabase : Lock := ⟨"", .null, .delete⟩

/-- The locks that a statement takes, in this order, together with its triggers (db/*/triggers.py: they run inside of the statement). -/
def App.stmtLocks (A : App) (S : Schema) (s : Stmt) (db : Db) : List Lock :=
  let chs := A.changesOf s db
  match A.engine.backend with
  | .sqlite => if chs.isEmpty then [] else [wholeDatabase]
  | b => chs.flatMap (Change.locks S b)

/-- The locks that a transaction of several statements takes. A statement that fails ends it. -/
def App.txnLocks (A : App) (S : Schema) : List Stmt → Db → List Lock
  | [], _ => []
  | s :: ss, db => A.stmtLocks S s db ++ match A.exec s db with
    | .ok db' => A.txnLocks S ss db'
    | .error _ => []

/-- A session: the locks it holds, and those it will still ask for before it commits. -/
structure Waiter where
  held : List Lock
  todo : List Lock
deriving DecidableEq, Repr

/-- Session `i`, which wants the lock `q`, has to wait for session `j`. -/
def waitsFor (ws : List Waiter) (i : Nat) (q : Lock) (j : Nat) : Prop :=
  i ≠ j ∧ ∃ w, ws[j]? = some w ∧ ∃ h ∈ w.held, q.conflict h = true

/-- What can happen next. -/
inductive LockStep (allowed : List Lock → Prop) : List Waiter → List Waiter → Prop where
  /-- a session begins a transaction that will take these locks -/
  | begin (ws : List Waiter) (p : List Lock) (h : allowed p) : LockStep allowed ws (ws ++ [⟨[], p⟩])
  /-- a session gets the lock it wants -/
  | grant (ws : List Waiter) (i : Nat) (held : List Lock) (q : Lock) (todo : List Lock) (hi : ws[i]? = some ⟨held, q :: todo⟩)
      (free : ∀ j, ¬ waitsFor ws i q j) : LockStep allowed ws (ws.set i ⟨held ++ [q], todo⟩)
  /-- a session commits, or rolls back: its locks become free -/
  | finish (ws : List Waiter) (i : Nat) : LockStep allowed ws (ws.set i ⟨[], []⟩)

/-- Everything that can happen, in any order, beginning with no session. -/
inductive LockRun (allowed : List Lock → Prop) : List Waiter → Prop where
  | start : LockRun allowed []
  | step {ws ws' : List Waiter} : LockRun allowed ws → LockStep allowed ws ws' → LockRun allowed ws'

/-- Some sessions wait for each other in a circle: each of them for another one of them. -/
def Deadlock (ws : List Waiter) : Prop :=
  ∃ I : List Nat, I ≠ [] ∧ ∀ i ∈ I, ∃ held q todo, ws[i]? = some ⟨held, q :: todo⟩ ∧ ∃ j ∈ I, waitsFor ws i q j

end Denorm
