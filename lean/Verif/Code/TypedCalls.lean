import Verif.Code.Typed
import Verif.Code.Calls
/-!
# Columns that change what they store: the calls of a program

The calls of Code/Calls, where every row that is written goes through the types of its columns. The instances in memory hold anything: what a form or a program assigned, not rounded, not cut. `pre_save`
(fields.py:60-80) computes from these attributes; the database computes from what it stored.
-/
namespace Denorm

/-- `objects.create(..)` (as `App.create`, Code/Orm). -/
def App.createTyped (A : App) (τ : ColumnTypes) (om : OrmModel) (mem : Row) (k : Val) (db : Db) : Except TypedErr (Db × Row) :=
  match preSaveAll A om.model db true om.saved mem with
  | .error e => .error (.orm e)
  | .ok mem1 =>
    match A.execTyped τ (.insert om.model.table [mem1.set om.model.pk k]) db with
    | .ok db' => .ok (db', mem1.set om.model.pk k)
    | .error e => .error e

/-- Errors of a call. -/
inductive TypedCallErr where
  | typed (e : TypedErr)
  /-- DatabaseError: "Save with update_fields did not affect any rows." -/
  | noRow
deriving DecidableEq, Repr

/-- `instance.save(update_fields=[..])` (as `App.saveFields`, Code/Calls). -/
def App.saveFieldsTyped (A : App) (τ : ColumnTypes) (om : OrmModel) (cols : List Col) (mem : Row) (db : Db) : Except TypedCallErr (Db × Row) :=
  if (om.restrict cols).saved = [] then .ok (db, mem)
  else match preSaveAll A om.model db false (om.restrict cols).saved mem with
    | .error e => .error (.typed (.orm e))
    | .ok mem1 =>
      if (db.rows om.model.table).any (isRowOf om.model (mem om.model.pk)) then
        match A.execTyped τ (saveUpdate (om.restrict cols) mem1) db with
        | .ok db' => .ok (db', mem1)
        | .error e => .error (.typed e)
      else .error .noRow

/-- `bulk_create([..])` (as `App.bulkCreate`, Code/Calls). -/
def App.bulkCreateTyped (A : App) (τ : ColumnTypes) (om : OrmModel) (objs : List (Row × Val)) (db : Db) : Except TypedErr Db :=
  match preSaveObjs A om db objs with
  | .error e => .error (.orm e)
  | .ok rs => A.execTyped τ (.insert om.model.table rs) db

/-- A row of a fixture (as `App.load`, Code/Calls). -/
def App.loadTyped (A : App) (τ : ColumnTypes) (om : OrmModel) (mem : Row) (db : Db) : Except TypedErr Db :=
  if (db.rows om.model.table).any (isRowOf om.model (mem om.model.pk)) then A.execTyped τ (saveUpdate om mem) db
  else A.execTyped τ (.insert om.model.table [mem]) db

def typedErr {α β : Type} (f : α → β) : Except TypedErr α → Except TypedCallErr β
  | .ok a => .ok (f a)
  | .error e => .error (.typed e)

/-- One call (as `App.call`). -/
def App.callTyped (A : App) (τ : ColumnTypes) (db : Db) : OrmCall → Except TypedCallErr Db
  | .save om mem => typedErr Prod.fst (A.saveTyped τ om mem db)
  | .saveFields om cols mem =>
    match A.saveFieldsTyped τ om cols mem db with
    | .ok x => .ok x.1
    | .error e => .error e
  | .create om mem k => typedErr Prod.fst (A.createTyped τ om mem k db)
  | .bulkCreate om objs => typedErr id (A.bulkCreateTyped τ om objs db)
  | .load om mem => typedErr id (A.loadTyped τ om mem db)
  | .stmt s => typedErr id (A.execTyped τ s db)

/-- A program (as `App.calls`): a call that raises has changed nothing. -/
def App.callsTyped (A : App) (τ : ColumnTypes) : List OrmCall → Db → Db
  | [], db => db
  | c :: cs, db =>
    match A.callTyped τ db c with
    | .ok db' => A.callsTyped τ cs db'
    | .error _ => A.callsTyped τ cs db

end Denorm
