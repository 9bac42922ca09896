import Verif.Spec.Callback
/-!
# Saving instances and flush() (fields.py, denorms.py:536-635)

The Python side. An instance in memory is a `Row` of attribute values. Not modelled here: multi-table inheritance (Code/MultiTable; an instance lives in one
table), the `force_insert` argument of save() (`update_fields`, bulk_create and loaddata: Code/Calls), user-defined save() methods and signal handlers, database routers.
-/
namespace Denorm

/-- What `pre_save` of a field does. -/
inductive Kind where
  /-- any ordinary field: the attribute value -/
  | plain
  /-- `@denormalized` (fields.py:56-80) -/
  | callback (cb : Callback)
  /-- CountField, SumField (fields.py:159-178) -/
  | aggregate
  /-- CacheKeyField (fields.py:282-285) -/
  | cacheKey

/-- A column that save() writes. -/
structure SaveField where
  col : Col
  kind : Kind

/-- A model as save() sees it: `_meta.local_concrete_fields` without the primary key, in declaration order. -/
structure OrmModel where
  model : Model
  saved : List SaveField

/-- Errors that leave save() or flush(). -/
inductive OrmErr where
  /-- the database refused the statement -/
  | db (e : DbErr)
  /-- the marker's content type has no model class any more (AttributeError) -/
  | noModel
  /-- `values_list(..)[0]` on an empty result (fields.py:171-175) -/
  | indexError
deriving DecidableEq, Repr

/-- A project: its database with the installed triggers, its models, the order in which the database returns dirty markers, and the
outcomes of Python's random source. `fuel` bounds the work of a single statement (see `Engine.drain`). -/
structure App where
  engine : Engine
  models : List OrmModel
  arrange : List Mark → List Mark
  pyRand : Db → Row → Col → Int
  fuel : Nat

/-- `field.pre_save(instance, add)`. The result is both stored in the attribute and written to the database. -/
def SaveField.preSave (A : App) (m : Model) (db : Db) (add : Bool) (mem : Row) (f : SaveField) : Except OrmErr Val :=
  match f.kind with
  | .plain => .ok (mem f.col)
  -- `value = self.denorm.func(model_instance)` (fields.py:60), on the instance as it is now and the database as it is now
  | .callback cb => .ok (cb.value db mem)
  | .aggregate =>
    -- fields.py:166-178
    if add then .ok (.int 0)
    else match (db.rows m.table).find? fun r => Val.sqlEq (r m.pk) (mem m.pk) with
      | some r => .ok (r f.col)
      | none => .error .indexError
  -- `random.randint(..)` (denorms.py:211): any value, possibly another one in every situation
  | .cacheKey => .ok (.int (A.pyRand db mem f.col))

/-- Django's `_save_table`: `pre_save` of every field in order; each sets its attribute before the next runs. -/
def preSaveAll (A : App) (m : Model) (db : Db) (add : Bool) : List SaveField → Row → Except OrmErr Row
  | [], mem => .ok mem
  | f :: fs, mem =>
    match f.preSave A m db add mem with
    | .ok v => preSaveAll A m db add fs (mem.set f.col v)
    | .error e => .error e

/-- Runs a statement. -/
def App.exec (A : App) (s : Stmt) (db : Db) : Except OrmErr Db :=
  match A.engine.exec A.fuel s db with
  | .ok db' => .ok db'
  | .error e => .error (.db e)

/-- The row is the instance's row. -/
def isRowOf (m : Model) (k : Val) (r : Row) : Bool := Val.sqlEq (r m.pk) k

/-- The UPDATE that save() issues: all saved columns of the row with the instance's primary key. -/
def saveUpdate (om : OrmModel) (mem : Row) : Stmt :=
  .update om.model.table (isRowOf om.model (mem om.model.pk)) fun _ r c => if c ∈ om.saved.map SaveField.col then mem c else r c

/-- `instance.save()` of an instance with a primary key: an UPDATE, and if that matched no row an INSERT (for which every `pre_save`
runs again with `add=True`). Returns the database and the instance's attributes. -/
def App.save (A : App) (om : OrmModel) (mem : Row) (db : Db) : Except OrmErr (Db × Row) :=
  match preSaveAll A om.model db false om.saved mem with
  | .error e => .error e
  | .ok mem1 =>
    if (db.rows om.model.table).any (isRowOf om.model (mem om.model.pk)) then
      match A.exec (saveUpdate om mem1) db with
      | .ok db' => .ok (db', mem1)
      | .error e => .error e
    else
      match preSaveAll A om.model db true om.saved mem1 with
      | .error e => .error e
      | .ok mem2 =>
        match A.exec (.insert om.model.table [mem2]) db with
        | .ok db' => .ok (db', mem2)
        | .error e => .error e

/-- `instance.save()` while other sessions commit statements: `pre_save` reads the database `db`, the UPDATE (and, if that matches no row,
the `pre_save`s for the INSERT and the INSERT itself) meets `db1`. Without other sessions `db1` is `db` and this is `App.save`. -/
def App.saveBetween (A : App) (om : OrmModel) (mem : Row) (db db1 : Db) : Except OrmErr (Db × Row) :=
  match preSaveAll A om.model db false om.saved mem with
  | .error e => .error e
  | .ok mem1 =>
    if (db1.rows om.model.table).any (isRowOf om.model (mem om.model.pk)) then
      match A.exec (saveUpdate om mem1) db1 with
      | .ok db' => .ok (db', mem1)
      | .error e => .error e
    else
      match preSaveAll A om.model db1 true om.saved mem1 with
      | .error e => .error e
      | .ok mem2 =>
        match A.exec (.insert om.model.table [mem2]) db1 with
        | .ok db' => .ok (db', mem2)
        | .error e => .error e

/-- `instance.save()` of a new instance without a primary key: one INSERT, for which every `pre_save` runs with `add=True`; the database
chooses the key `k`. -/
def App.create (A : App) (om : OrmModel) (mem : Row) (k : Val) (db : Db) : Except OrmErr (Db × Row) :=
  match preSaveAll A om.model db true om.saved mem with
  | .error e => .error e
  | .ok mem1 =>
    match A.exec (.insert om.model.table [mem1.set om.model.pk k]) db with
    | .ok db' => .ok (db', mem1.set om.model.pk k)
    | .error e => .error e

/-- `dirty_instance.content_object`: the model of the content type, the row with that primary key. `none` if there is no such row (also
for a NULL object id). -/
def App.contentObject (A : App) (db : Db) (m : Mark) : Except OrmErr (Option (OrmModel × Row)) :=
  match A.models.find? fun om => om.model.ct == m.ct with
  | none => .error .noModel
  | some om =>
    match (db.rows om.model.table).find? (isRowOf om.model m.oid) with
    | none => .ok none
    | some r => .ok (some (om, r))

/-- `DirtyInstance.objects.filter(content_type_id=.., object_id=..).delete()` (denorms.py:632-635); `object_id=None` means IS NULL. -/
def Db.dropMarks (db : Db) (m : Mark) : Db := { db with dirty := db.dirty.filter fun m' => m' ≠ m }

/-- `if dirty_instance.content_object: dirty_instance.content_object.save()` (denorms.py:629-630). -/
def App.saveObject (A : App) (m : Mark) (db : Db) : Except OrmErr Db :=
  match A.contentObject db m with
  | .error e => .error e
  | .ok none => .ok db
  | .ok (some (om, r)) =>
    match A.save om r db with
    | .ok (db', _) => .ok db'
    | .error e => .error e

/-- One round of the inner loop (denorms.py:625-635). -/
def App.flushOne (A : App) (m : Mark) (db : Db) : Except OrmErr Db :=
  match A.saveObject m db with
  | .ok db' => .ok (db'.dropMarks m)
  | .error e => .error e

/-- The markers a pass goes through (denorms.py:607-614, 625): all of them, with DISTINCT ON (content_type, object_id) where the backend
has it; the list is fixed when the pass starts. -/
def App.snapshot (A : App) (db : Db) : List Mark :=
  match A.engine.backend with
  | .postgresql => dedup (A.arrange db.dirty)
  | _ => A.arrange db.dirty

/-- The inner loop over a list of markers. -/
def App.flushList (A : App) : List Mark → Db → Except OrmErr Db
  | [], db => .ok db
  | m :: ms, db =>
    match A.flushOne m db with
    | .ok db' => A.flushList ms db'
    | .error e => .error e

/-- One pass of the outer loop. -/
def App.pass (A : App) (db : Db) : Except OrmErr Db := A.flushList (A.snapshot db) db

/-- `flush()` (denorms.py:593-635). `none`: still running after `n` passes. -/
def App.flush (A : App) : Nat → Db → Except OrmErr (Option Db)
  | n, db =>
    if db.dirty = [] then .ok (some db)
    else match n with
      | 0 => .ok none
      | n + 1 =>
        match A.pass db with
        | .ok db' => A.flush n db'
        | .error e => .error e

end Denorm
