import Verif.Code.Rebuild
/-!
# Models whose manager `objects` does not return every row

A model may define a manager `objects` that leaves out rows, for instance those marked as deleted. `AggregateField.pre_save` (fields.py:171-175) and
rebuildall() (denorms.py:561) query through it. `content_object` and the UPDATE of save() use Django's `_base_manager`, which returns every row.

`O t r` says that the manager returns the row `r` of table `t`. The definitions are those of Code/Orm and Code/Rebuild with the two queries replaced;
with managers that return every row they are the same (`C57_flush_partial`, `C57_rebuild_partial`).
-/
namespace Denorm

/-- What the managers `objects` return. -/
abbrev Managers := TableName → Row → Bool

/-- `field.pre_save(instance, add)`, see `SaveField.preSave`. -/
def SaveField.preSaveSeeing (O : Managers) (A : App) (m : Model) (db : Db) (add : Bool) (mem : Row) (f : SaveField) : Except OrmErr Val :=
  match f.kind with
  | .aggregate =>
    -- `self.denorm.model.objects.filter(pk=model_instance.pk).values_list(self.attname, flat=True)[0]` (fields.py:171-175)
    if add then .ok (.int 0)
    else match ((db.rows m.table).filter (O m.table)).find? fun r => Val.sqlEq (r m.pk) (mem m.pk) with
      | some r => .ok (r f.col)
      | none => .error .indexError
  | _ => f.preSave A m db add mem

/-- See `preSaveAll`. -/
def preSaveAllSeeing (O : Managers) (A : App) (m : Model) (db : Db) (add : Bool) : List SaveField → Row → Except OrmErr Row
  | [], mem => .ok mem
  | f :: fs, mem =>
    match f.preSaveSeeing O A m db add mem with
    | .ok v => preSaveAllSeeing O A m db add fs (mem.set f.col v)
    | .error e => .error e

/-- `instance.save()`, see `App.save`. -/
def App.saveSeeing (O : Managers) (A : App) (om : OrmModel) (mem : Row) (db : Db) : Except OrmErr (Db × Row) :=
  match preSaveAllSeeing O A om.model db false om.saved mem with
  | .error e => .error e
  | .ok mem1 =>
    if (db.rows om.model.table).any (isRowOf om.model (mem om.model.pk)) then
      match A.exec (saveUpdate om mem1) db with
      | .ok db' => .ok (db', mem1)
      | .error e => .error e
    else
      match preSaveAllSeeing O A om.model db true om.saved mem1 with
      | .error e => .error e
      | .ok mem2 =>
        match A.exec (.insert om.model.table [mem2]) db with
        | .ok db' => .ok (db', mem2)
        | .error e => .error e

/-- One round of the inner loop of flush() (denorms.py:625-635), see `App.saveObject`, `App.flushOne`. -/
def App.flushOneSeeing (O : Managers) (A : App) (m : Mark) (db : Db) : Except OrmErr Db :=
  match A.contentObject db m with
  | .error e => .error e
  | .ok none => .ok (db.dropMarks m)
  | .ok (some (om, r)) =>
    match A.saveSeeing O om r db with
    | .ok (db', _) => .ok (db'.dropMarks m)
    | .error e => .error e

/-- The inner loop, see `App.flushList`. -/
def App.flushListSeeing (O : Managers) (A : App) : List Mark → Db → Except OrmErr Db
  | [], db => .ok db
  | m :: ms, db =>
    match A.flushOneSeeing O m db with
    | .ok db' => A.flushListSeeing O ms db'
    | .error e => .error e

/-- `flush()`, see `App.flush`. -/
def App.flushSeeing (O : Managers) (A : App) : Nat → Db → Except OrmErr (Option Db)
  | n, db =>
    if db.dirty = [] then .ok (some db)
    else match n with
      | 0 => .ok none
      | n + 1 =>
        match A.flushListSeeing O (A.snapshot db) db with
        | .ok db' => A.flushSeeing O n db'
        | .error e => .error e

/-- The markers that rebuildall() creates (denorms.py:553-565), see `rebuildMarks`. -/
def rebuildMarksSeeing (O : Managers) (models : List Model) (db : Db) : List Mark :=
  models.flatMap fun m => ((db.rows m.table).filter (O m.table)).map fun r => ⟨m.ct, r m.pk⟩

/-- `rebuildall()`, see `App.rebuildall`. -/
def App.rebuildallSeeing (O : Managers) (A : App) (alldenorms : List Denorm) (modelName fieldName : Option String) (n : Nat) (db : Db) :
    Except OrmErr (Option Db) :=
  A.flushSeeing O n (db.addMarks (rebuildMarksSeeing O (rebuildModels alldenorms modelName fieldName) db))

end Denorm
