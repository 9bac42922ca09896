import Verif.Code.Calls
/-!
# save() of an instance that holds related objects

Django keeps related objects that an instance has loaded (`entry.blog`, `select_related()`, `prefetch_related()`) on the instance. A callback that follows the relation later, in
`pre_save` (fields.py:60), gets them as they were when they were loaded, not as they are in the database now. CountField, SumField and CacheKeyField do not read related objects
(fields.py:159-178, 282-285).

What a callback reads of other rows is given as a database of its own, `view cb`, for each callback: some related objects may be old, others new, and each may have been loaded at
another time, or changed in memory and not saved. Nothing is assumed of it.
-/
namespace Denorm

/-- `field.pre_save(instance, add)` (fields.py:56-80, 159-178, 282-285) of an instance that holds related objects. -/
def SaveField.preSaveHeld (A : App) (view : Callback → Db) (m : Model) (db : Db) (add : Bool) (mem : Row) (f : SaveField) : Except OrmErr Val :=
  match f.kind with
  | .callback cb => .ok (cb.value (view cb) mem)
  | _ => f.preSave A m db add mem

/-- `pre_save` of every field in order (as `preSaveAll`). -/
def preSaveAllHeld (A : App) (view : Callback → Db) (m : Model) (db : Db) (add : Bool) : List SaveField → Row → Except OrmErr Row
  | [], mem => .ok mem
  | f :: fs, mem =>
    match f.preSaveHeld A view m db add mem with
    | .ok v => preSaveAllHeld A view m db add fs (mem.set f.col v)
    | .error e => .error e

/-- `instance.save()` (as `App.save`). -/
def App.saveHeld (A : App) (view : Callback → Db) (om : OrmModel) (mem : Row) (db : Db) : Except OrmErr (Db × Row) :=
  match preSaveAllHeld A view om.model db false om.saved mem with
  | .error e => .error e
  | .ok mem1 =>
    if (db.rows om.model.table).any (isRowOf om.model (mem om.model.pk)) then
      match A.exec (saveUpdate om mem1) db with
      | .ok db' => .ok (db', mem1)
      | .error e => .error e
    else
      match preSaveAllHeld A view om.model db true om.saved mem1 with
      | .error e => .error e
      | .ok mem2 =>
        match A.exec (.insert om.model.table [mem2]) db with
        | .ok db' => .ok (db', mem2)
        | .error e => .error e

/-- `instance.save()` of a new instance, `objects.create(..)` (as `App.create`). -/
def App.createHeld (A : App) (view : Callback → Db) (om : OrmModel) (mem : Row) (k : Val) (db : Db) : Except OrmErr (Db × Row) :=
  match preSaveAllHeld A view om.model db true om.saved mem with
  | .error e => .error e
  | .ok mem1 =>
    match A.exec (.insert om.model.table [mem1.set om.model.pk k]) db with
    | .ok db' => .ok (db', mem1.set om.model.pk k)
    | .error e => .error e

/-- `instance.save(update_fields=[..])` (as `App.saveFields`). -/
def App.saveFieldsHeld (A : App) (view : Callback → Db) (om : OrmModel) (cols : List Col) (mem : Row) (db : Db) : Except CallErr (Db × Row) :=
  if (om.restrict cols).saved = [] then .ok (db, mem)
  else match preSaveAllHeld A view om.model db false (om.restrict cols).saved mem with
    | .error e => .error (.orm e)
    | .ok mem1 =>
      if (db.rows om.model.table).any (isRowOf om.model (mem om.model.pk)) then
        match A.exec (saveUpdate (om.restrict cols) mem1) db with
        | .ok db' => .ok (db', mem1)
        | .error e => .error (.orm e)
      else .error .noRow

/-- A call of a program whose instances hold related objects. -/
inductive HeldCall where
  | save (view : Callback → Db) (om : OrmModel) (mem : Row)
  | saveFields (view : Callback → Db) (om : OrmModel) (cols : List Col) (mem : Row)
  | create (view : Callback → Db) (om : OrmModel) (mem : Row) (k : Val)
  /-- any call with instances that hold nothing, or without instances -/
  | call (c : OrmCall)

def App.heldCall (A : App) (db : Db) : HeldCall → Except CallErr Db
  | .save view om mem => callErr Prod.fst (A.saveHeld view om mem db)
  | .saveFields view om cols mem =>
    match A.saveFieldsHeld view om cols mem db with
    | .ok x => .ok x.1
    | .error e => .error e
  | .create view om mem k => callErr Prod.fst (A.createHeld view om mem k db)
  | .call c => A.call db c

/-- A program: one call after the other (as `App.calls`). -/
def App.heldCalls (A : App) : List HeldCall → Db → Db
  | [], db => db
  | c :: cs, db =>
    match A.heldCall db c with
    | .ok db' => A.heldCalls cs db'
    | .error _ => A.heldCalls cs db

end Denorm
