import Verif.Sql.Db
/-!
# Emptying the database

`manage.py flush`, and `TransactionTestCase` after each test, empty every table of the project, also `denorm_dirtyinstance` (`denorm/models.py:7-20`) and the
table of content types. `/repo` sees this only through its triggers. What is taken from Django (`sql_flush` and `execute_sql_flush` of the backends): on
PostgreSQL, and on MySQL (since Django 3.1 only where sequences are reset), tables are truncated, which fires no triggers for rows. Otherwise every table gets a
`DELETE FROM table`, in one transaction; the tables come in an arbitrary order (`django_table_names` makes a set of them). Afterwards the content types are
created anew.
-/
namespace Denorm

/-- A table that is emptied: the markers, or a table of a model. -/
inductive Emptied where
  | markers
  | table (t : TableName)
deriving DecidableEq, Repr

/-- `TRUNCATE`: no triggers. -/
def Emptied.truncate (db : Db) : Emptied → Db
  | .markers => { db with dirty := [] }
  | .table t => db.setRows t []

/-- `DELETE FROM table`, with its triggers (`after delete`, denorm/dependencies.py:274-400, denorm/denorms.py:355-368, 436-439). sqlite's
shortcut for a DELETE without WHERE is not taken for a table with triggers. There are no triggers on the table of markers. -/
def Engine.emptyOne (E : Engine) (fuel : Nat) (db : Db) : Emptied → Except DbErr Db
  | .markers => .ok { db with dirty := [] }
  | .table t => E.exec fuel (.delete t fun _ => true) db

/-- The statements, in one transaction. -/
def Engine.emptyAll (E : Engine) (fuel : Nat) : List Emptied → Db → Except DbErr Db
  | [], db => .ok db
  | x :: xs, db =>
    match E.emptyOne fuel db x with
    | .ok db' => E.emptyAll fuel xs db'
    | .error e => .error e

inductive EmptyErr where
  | db (e : DbErr)
  /-- `IntegrityError`: "FOREIGN KEY constraint failed" -/
  | integrity
deriving DecidableEq, Repr

/-- The command, on a database that truncates or deletes. `checked`: references are checked when the transaction is committed (sqlite since Django 2.0; MySQL
switches the checks off). The content types are gone by then, so that every marker that is left (`DirtyInstance.content_type`, models.py:14) is an
error. Simplified: the references between the other tables are not looked at, since all of them are empty. -/
def Engine.emptyDatabase (E : Engine) (truncates checked : Bool) (fuel : Nat) (order : List Emptied) (db : Db) : Except EmptyErr Db :=
  if truncates then .ok (order.foldl Emptied.truncate db)
  else
    match E.emptyAll fuel order db with
    | .error e => .error (.db e)
    | .ok db' => if checked && !db'.dirty.isEmpty then .error .integrity else .ok db'

end Denorm
