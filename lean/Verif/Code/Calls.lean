import Verif.Code.Orm
/-!
# The other ways in which Django writes data

`Verif.Code.Orm` has save() of an instance that is in the database (or has a chosen key) and of a new instance. Here are the calls that leave out fields or do not call `pre_save` at all. django-denorm
has no code of its own for them: what it does is in `pre_save` of its fields (fields.py:56-80, 159-178, 282-285) and in the triggers.

Simplifications: an instance lives in one table; `update_fields` is given by column; `bulk_create` issues one INSERT (no batches).
-/
namespace Denorm

/-- A call of a program that writes data through Django. -/
inductive OrmCall where
  /-- `instance.save()`, with a primary key -/
  | save (om : OrmModel) (mem : Row)
  /-- `instance.save(update_fields=[..])`, and `instance.save()` if some fields were not loaded (`only()`, `defer()`): the loaded ones are then the `update_fields` -/
  | saveFields (om : OrmModel) (cols : List Col) (mem : Row)
  /-- `objects.create(..)`, `save()` of a new instance, `save(force_insert=True)`; `k` is the primary key -/
  | create (om : OrmModel) (mem : Row) (k : Val)
  /-- `bulk_create([..])`, with the primary keys -/
  | bulkCreate (om : OrmModel) (objs : List (Row × Val))
  /-- a row of a fixture (`loaddata`): `save_base(raw=True)` -/
  | load (om : OrmModel) (mem : Row)
  /-- `QuerySet.update()`, `QuerySet.delete()`, `bulk_update()`, SQL -/
  | stmt (s : Stmt)

/-- Errors of such a call. -/
inductive CallErr where
  | orm (e : OrmErr)
  /-- DatabaseError: "Save with update_fields did not affect any rows." -/
  | noRow
deriving DecidableEq, Repr

/-- The model with the given fields only: Django's `_save_table` goes through the fields in `update_fields` and no others. -/
def OrmModel.restrict (om : OrmModel) (cols : List Col) : OrmModel := ⟨om.model, om.saved.filter fun f => decide (f.col ∈ cols)⟩

/-- `instance.save(update_fields=[..])`: `pre_save` of the named fields, an UPDATE of their columns. -/
def App.saveFields (A : App) (om : OrmModel) (cols : List Col) (mem : Row) (db : Db) : Except CallErr (Db × Row) :=
  -- `if len(update_fields) == 0: return`
  if (om.restrict cols).saved = [] then .ok (db, mem)
  else match preSaveAll A om.model db false (om.restrict cols).saved mem with
    | .error e => .error (.orm e)
    | .ok mem1 =>
      if (db.rows om.model.table).any (isRowOf om.model (mem om.model.pk)) then
        match A.exec (saveUpdate (om.restrict cols) mem1) db with
        | .ok db' => .ok (db', mem1)
        | .error e => .error (.orm e)
      else .error .noRow

/-- The rows that `bulk_create` inserts: `pre_save` of every field of every object, with `add=True`. -/
def preSaveObjs (A : App) (om : OrmModel) (db : Db) : List (Row × Val) → Except OrmErr (List Row)
  | [] => .ok []
  | (mem, k) :: objs =>
    match preSaveAll A om.model db true om.saved mem with
    | .error e => .error e
    | .ok mem1 =>
      match preSaveObjs A om db objs with
      | .error e => .error e
      | .ok rs => .ok (mem1.set om.model.pk k :: rs)

/-- `bulk_create([..])`: one INSERT. -/
def App.bulkCreate (A : App) (om : OrmModel) (objs : List (Row × Val)) (db : Db) : Except OrmErr Db :=
  match preSaveObjs A om db objs with
  | .error e => .error e
  | .ok rs => A.exec (.insert om.model.table rs) db

/-- `save_base(raw=True)`: the attributes are written as they are, `pre_save` is not called; an UPDATE, or an INSERT if that matches no row. -/
def App.load (A : App) (om : OrmModel) (mem : Row) (db : Db) : Except OrmErr Db :=
  if (db.rows om.model.table).any (isRowOf om.model (mem om.model.pk)) then A.exec (saveUpdate om mem) db
  else A.exec (.insert om.model.table [mem]) db

def callErr {α β : Type} (f : α → β) : Except OrmErr α → Except CallErr β
  | .ok a => .ok (f a)
  | .error e => .error (.orm e)

/-- One call. -/
def App.call (A : App) (db : Db) : OrmCall → Except CallErr Db
  | .save om mem => callErr Prod.fst (A.save om mem db)
  | .saveFields om cols mem =>
    match A.saveFields om cols mem db with
    | .ok x => .ok x.1
    | .error e => .error e
  | .create om mem k => callErr Prod.fst (A.create om mem k db)
  | .bulkCreate om objs => callErr id (A.bulkCreate om objs db)
  | .load om mem => callErr id (A.load om mem db)
  | .stmt s => callErr id (A.exec s db)

/-- A program: one call after the other. A call that raises has changed nothing (its transaction is rolled back). -/
def App.calls (A : App) : List OrmCall → Db → Db
  | [], db => db
  | c :: cs, db =>
    match A.call db c with
    | .ok db' => A.calls cs db'
    | .error _ => A.calls cs db

end Denorm
