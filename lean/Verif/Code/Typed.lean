import Verif.Code.Orm
import Verif.Sql.Store
/-!
# Columns that change what they store

`CharField(max_length=..)`, `DecimalField(decimal_places=..)`, `DateTimeField` on a database without microseconds: what a column holds may be another value than the one that was written. fields.py:33-37
hands the declared type of a `@denormalized` field on to Django, and fields.py:60-80 leaves the value that the callback returned on the instance as it is. This is `save()` and `flush()` of Code/Orm once more, where
every row that is written goes through the types of its columns (Sql/Store), whoever writes it: save(), triggers, or SQL.
-/
namespace Denorm

/-- What the columns' types make of a value. -/
abbrev ColumnTypes := TableName → Col → Val → Val

/-- A row as it is stored. -/
def ColumnTypes.row (τ : ColumnTypes) (t : TableName) (r : Row) : Row := fun c => τ t c (r c)

/-- The types of the columns (they refuse nothing: values that are refused are C66). -/
def ColumnTypes.store (τ : ColumnTypes) : Store := fun t r => some (τ.row t r)

/-- Errors that leave save() or flush(). -/
inductive TypedErr where
  | orm (e : OrmErr)
  /-- a column refuses the value (DataError) -/
  | refused
deriving DecidableEq, Repr

/-- Runs a statement (as `App.exec`). -/
def App.execTyped (A : App) (τ : ColumnTypes) (s : Stmt) (db : Db) : Except TypedErr Db :=
  match A.engine.execStored τ.store A.fuel s db with
  | .ok db' => .ok db'
  | .error (.db e) => .error (.orm (.db e))
  | .error .refused => .error .refused

/-- `instance.save()` (as `App.save`): the instance keeps the values as they were computed, the row gets them as its columns store them. -/
def App.saveTyped (A : App) (τ : ColumnTypes) (om : OrmModel) (mem : Row) (db : Db) : Except TypedErr (Db × Row) :=
  match preSaveAll A om.model db false om.saved mem with
  | .error e => .error (.orm e)
  | .ok mem1 =>
    if (db.rows om.model.table).any (isRowOf om.model (mem om.model.pk)) then
      match A.execTyped τ (saveUpdate om mem1) db with
      | .ok db' => .ok (db', mem1)
      | .error e => .error e
    else
      match preSaveAll A om.model db true om.saved mem1 with
      | .error e => .error (.orm e)
      | .ok mem2 =>
        match A.execTyped τ (.insert om.model.table [mem2]) db with
        | .ok db' => .ok (db', mem2)
        | .error e => .error e

/-- `if dirty_instance.content_object: dirty_instance.content_object.save()` (denorms.py:629-630; as `App.saveObject`). -/
def App.saveObjectTyped (A : App) (τ : ColumnTypes) (m : Mark) (db : Db) : Except TypedErr Db :=
  match A.contentObject db m with
  | .error e => .error (.orm e)
  | .ok none => .ok db
  | .ok (some (om, r)) =>
    match A.saveTyped τ om r db with
    | .ok (db', _) => .ok db'
    | .error e => .error e

/-- The inner loop (denorms.py:625-635; as `App.flushList`). -/
def App.flushListTyped (A : App) (τ : ColumnTypes) : List Mark → Db → Except TypedErr Db
  | [], db => .ok db
  | m :: ms, db =>
    match A.saveObjectTyped τ m db with
    | .ok db' => A.flushListTyped τ ms (db'.dropMarks m)
    | .error e => .error e

/-- `flush()` (denorms.py:593-635; as `App.flush`). -/
def App.flushTyped (A : App) (τ : ColumnTypes) : Nat → Db → Except TypedErr (Option Db)
  | n, db =>
    if db.dirty = [] then .ok (some db)
    else match n with
      | 0 => .ok none
      | n + 1 =>
        match A.flushListTyped τ (A.snapshot db) db with
        | .ok db' => A.flushTyped τ n db'
        | .error e => .error e

/-- SQL statements, one after the other (as `Engine.run`): those that fail change nothing. -/
def App.runTyped (A : App) (τ : ColumnTypes) : List Stmt → Db → Db
  | [], db => db
  | s :: ss, db =>
    match A.execTyped τ s db with
    | .ok db' => A.runTyped τ ss db'
    | .error _ => A.runTyped τ ss db

end Denorm
