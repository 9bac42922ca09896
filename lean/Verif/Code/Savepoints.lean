import Verif.Code.Transactions
/-!
# Nested `atomic()` blocks (savepoints) among transactions of several sessions

An `atomic()` block inside another one sets a savepoint, releases it when the block is left, and rolls back to it (and releases it) when the block is left by an exception
(django/db/transaction.py, `Atomic`). Triggers run within the statement (db/*/triggers.py), so what they have written since the savepoint, markers included, is taken back
together with the statements that caused it; flush() reads `denorm_dirtyinstance` with ordinary queries (denorms.py:593-635).

Simplifications: those of Code/Transactions. The random numbers drawn since the savepoint may be drawn again.
-/
namespace Denorm

/-- A session: what it has written (as in Code/Transactions), what it had written when the savepoints were set that are still there (the latest first), and the locks of
statements that have been taken back. -/
structure NestSession where
  txn : Option Txn
  saves : List (Option Txn)
  held : Locks

/-- The committed state and the sessions. -/
structure NestServer where
  db : Db
  sessions : List NestSession

/-- The same without savepoints. -/
def NestServer.plain (X : NestServer) : DbServer := ⟨X.db, X.sessions.map NestSession.txn⟩

inductive NestMove where
  /-- a statement, a commit or rollback of the whole transaction, or a step of flush() -/
  | move (μ : Move)
  /-- session `i` enters a nested `atomic()` block -/
  | enter (i : Nat)
  /-- session `i` leaves the innermost nested block -/
  | leave (i : Nat)
  /-- session `i` leaves the innermost nested block by an exception -/
  | fail (i : Nat)

/-- Some session other than `i` holds a lock that excludes `l` for a statement that has been taken back. -/
def NestServer.waits (back : Backend) (X : NestServer) (i : Option Nat) (l : Locks) : Bool :=
  (List.range X.sessions.length).any fun j => some j ≠ i && match X.sessions[j]? with
    | some T => Locks.conflict back l T.held
    | none => false

/-- The locks that a session holds for the statements it rolls back. PostgreSQL gives up the locks taken since the savepoint; MySQL and sqlite keep them until the end of the transaction. -/
def NestSession.heldAfter (back : Backend) (T : NestSession) : Locks :=
  match back, T.txn with
  | .postgresql, _ => T.held
  | _, none => T.held
  | _, some t => t.locks.append T.held

/-- One move. -/
def App.nestMove (A : App) (S : Schema) (X : NestServer) : NestMove → NestServer
  | .move (.stmt i s) =>
    if X.waits A.engine.backend (some i) (locksOf S (A.changesOf s (X.plain.sight S i).1)) then X
    else match X.sessions[i]?, (A.move S X.plain (.stmt i s)).sessions[i]? with
      | some T, some t => ⟨X.db, X.sessions.set i { T with txn := t }⟩
      | _, _ => X
  | .move (.commit i) => ⟨(A.move S X.plain (.commit i)).db, X.sessions.set i ⟨none, [], .free⟩⟩
  | .move (.rollback i) => ⟨X.db, X.sessions.set i ⟨none, [], .free⟩⟩
  | .move (.flushOne m) =>
    if X.waits A.engine.backend none ((locksOf S (A.flushChanges m X.db)).append (markLock m)) then X
    else ⟨(A.move S X.plain (.flushOne m)).db, X.sessions⟩
  | .enter i =>
    match X.sessions[i]? with
    | some T => ⟨X.db, X.sessions.set i { T with saves := T.txn :: T.saves }⟩
    | none => X
  | .leave i =>
    match X.sessions[i]? with
    | some T => ⟨X.db, X.sessions.set i { T with saves := T.saves.tail }⟩
    | none => X
  | .fail i =>
    match X.sessions[i]? with
    | some T =>
      match T.saves with
      | t :: ts => ⟨X.db, X.sessions.set i ⟨t, ts, T.heldAfter A.engine.backend⟩⟩
      | [] => X
    | none => X

/-- A schedule. -/
def App.nestMoves (A : App) (S : Schema) : List NestMove → NestServer → NestServer
  | [], X => X
  | σ :: σs, X => A.nestMoves S σs (A.nestMove S X σ)

/-- `n` sessions that have not written anything yet. -/
def NestServer.start (db : Db) (n : Nat) : NestServer := ⟨db, List.replicate n ⟨none, [], .free⟩⟩

end Denorm
