import Verif.Code.Orm
/-!
# flush() reading its markers piece by piece (denorms.py:607-635)

`for dirty_instance in qs.iterator()` does not read all markers at once: Django fetches them from the open cursor in portions (`fetchmany`).
PostgreSQL and MySQL give the cursor what was in the table when the query was sent, so that the portions are those of one list, and
`App.flush` is the same. On sqlite (where Django 2.0 began to read in portions; before, it read everything first) a cursor is not isolated from the
statements of its own connection: a later portion is read from the table as it is then, without the markers that the loop has deleted and
with those that its saves have added. Rows come in the order of their ids, and ids grow (AUTOINCREMENT).

Simplification: Python's sqlite3 module before 3.10 is always one row ahead of what it has returned. `App.Handles` (`Spec/Reading.lean`)
leaves open what is read, and covers this too.
-/
namespace Denorm

/-- One portion (denorms.py:625-635). `seen`: how many rows of the table lie before the cursor; the DELETE may remove some of them, and the
markers that save() adds come after all others. -/
def App.flushPiece (A : App) : List Mark → Nat → Db → Except OrmErr (Nat × Db)
  | [], seen, db => .ok (seen, db)
  | m :: ms, seen, db =>
    match A.flushOne m db with
    | .ok db' => A.flushPiece ms ((db.dirty.take seen).filter fun m' => m' ≠ m).length db'
    | .error e => .error e

/-- `flush()` (denorms.py:593-635) with portions of `k` rows, from the moment when a cursor has `seen` rows behind it. When the cursor has come to its
end, the next pass begins, with `if not qs: break`. `none`: still running after `n` portions. -/
def App.readOn (A : App) (k : Nat) : Nat → Nat → Db → Except OrmErr (Option Db)
  | 0, _, _ => .ok none
  | n + 1, seen, db =>
    match (db.dirty.drop seen).take k with
    | [] => if db.dirty = [] then .ok (some db) else A.readOn k n 0 db
    | m :: ms =>
      match A.flushPiece (m :: ms) (seen + (m :: ms).length) db with
      | .ok (seen', db') => A.readOn k n seen' db'
      | .error e => .error e

/-- A call of `flush()`. -/
def App.flushReading (A : App) (k : Nat) (n : Nat) (db : Db) : Except OrmErr (Option Db) := A.readOn k n 0 db

end Denorm
