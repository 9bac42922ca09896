import Verif.Sql.Db
/-!
# Statements that insert a row or, if it is already there, do something else
`INSERT .. ON CONFLICT`, `INSERT .. ON DUPLICATE KEY UPDATE`, `INSERT IGNORE`, `REPLACE`, and what the triggers of `/repo` see of them.
-/
namespace Denorm

/-- Row `x` of the table has the values of the new row `r` in all columns of one of the unique constraints `us`. (NULL is equal to
nothing: SQL lets unique columns hold it several times.) -/
def clashes (us : List (List Col)) (r x : Row) : Bool := us.any fun u => u.all fun c => Val.sqlEq (x c) (r c)

/-- What is done with a row whose key is already there. -/
inductive OnConflict where
  /-- `ON CONFLICT DO NOTHING`, `INSERT OR IGNORE`, `INSERT IGNORE`; `bulk_create(.., ignore_conflicts=True)` -/
  | doNothing
  /-- `ON CONFLICT (..) DO UPDATE SET ..`, `ON DUPLICATE KEY UPDATE ..`; `bulk_create(.., update_conflicts=True, ..)`. The function is
  given the new row and the row that is there. -/
  | doUpdate (σ : Row → Row → Row)

/-- The rows written, row by row. `cur` is what the table holds when the row's turn comes; what triggers write into the table in between
is left out of it, which makes no difference to `clashes` unless triggers write the columns of unique constraints. (PostgreSQL refuses
to update a row that the same statement has written already; the model goes on.) -/
def upsertOps (us : List (List Col)) (oc : OnConflict) : List Row → List Row → List RowOp
  | [], _ => []
  | r :: rs, cur =>
    match (targetsOf cur (clashes us r)).head?, oc with
    | none, _ => .ins r :: upsertOps us oc rs (cur ++ [r])
    | some _, .doNothing => upsertOps us oc rs cur
    | some i, .doUpdate σ => .upd i (fun _ x => σ r x) :: upsertOps us oc rs (cur.modify i (σ r))

/-- Executes an upsert. For a row that is inserted the AFTER INSERT triggers run, for one that is updated the AFTER UPDATE triggers,
and none for one that is skipped (the `CREATE TRIGGER .. AFTER INSERT|UPDATE|DELETE .. FOR EACH ROW` of
`denorm/db/sqlite3/triggers.py:100-106`, `denorm/db/mysql/triggers.py:99-105` and `denorm/db/postgresql/triggers.py:120-131`; that upserts
fire the triggers of what they do to the row is documented by all three databases). -/
def Engine.upsert (E : Engine) (fuel : Nat) (t : TableName) (us : List (List Col)) (oc : OnConflict) (rs : List Row) (db : Db) :
    Except DbErr Db :=
  E.drain fuel (writes E.backend .top t (upsertOps us oc rs (db.rows t))) db

/-- The rows written by MySQL's `REPLACE`: rows that clash with a new row are deleted before it is inserted. -/
def replaceOps (us : List (List Col)) : List Row → List Row → List RowOp
  | [], _ => []
  | r :: rs, cur =>
    (targetsOf cur (clashes us r)).map (fun _ => .del (clashes us r)) ++
      .ins r :: replaceOps us rs ((cur.filter fun x => !clashes us r x) ++ [r])

/-- sqlite's `REPLACE` (`INSERT OR REPLACE`): "delete triggers fire if and only if recursive triggers are enabled", and they are not:
`denorm/db/sqlite3/triggers.py` (all of it) does not set the pragma and its default is off. The rows vanish without a trace. -/
def Engine.replaceQuietly (E : Engine) (fuel : Nat) (t : TableName) (us : List (List Col)) : List Row → Db → Except DbErr Db
  | [], db => .ok db
  | r :: rs, db =>
    match E.drain fuel [.write .top t [.ins r]] (db.setRows t ((db.rows t).filter fun x => !clashes us r x)) with
    | .ok db' => E.replaceQuietly fuel t us rs db'
    | .error e => .error e

/-- Executes a `REPLACE`. (PostgreSQL has no such statement.) -/
def Engine.replace (E : Engine) (fuel : Nat) (t : TableName) (us : List (List Col)) (rs : List Row) (db : Db) : Except DbErr Db :=
  match E.backend with
  | .sqlite => E.replaceQuietly fuel t us rs db
  | _ => E.drain fuel (writes E.backend .top t (replaceOps us rs (db.rows t))) db

/-- A statement of a user session, upserts included. -/
inductive DbWrite where
  | stmt (s : Stmt)
  | upsert (t : TableName) (us : List (List Col)) (oc : OnConflict) (rs : List Row)
  | replace (t : TableName) (us : List (List Col)) (rs : List Row)

def Engine.write (E : Engine) (fuel : Nat) (db : Db) : DbWrite → Except DbErr Db
  | .stmt s => E.exec fuel s db
  | .upsert t us oc rs => E.upsert fuel t us oc rs db
  | .replace t us rs => E.replace fuel t us rs db

/-- Executes a history. A failing statement is rolled back and the session goes on. -/
def Engine.writeAll (E : Engine) (fuel : Nat) : List DbWrite → Db → Db
  | [], db => db
  | w :: ws, db =>
    match E.write fuel db w with
    | .ok db' => E.writeAll fuel ws db'
    | .error _ => E.writeAll fuel ws db

/-- `TRUNCATE t` on PostgreSQL and MySQL (Django's `flush` command): row triggers do not fire, and `/repo` creates no others
(`denorm/db/postgresql/triggers.py:120-131`, `denorm/db/mysql/triggers.py:99-105`: `FOR EACH ROW`). -/
def Db.truncate (db : Db) (t : TableName) : Db := db.setRows t []

end Denorm
