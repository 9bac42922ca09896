import Verif.Code.Rebuild
/-!
# Which callbacks are called (fields.py:56-60, denorms.py:569-635)

save(), flush() and rebuildall() as in `Code/Orm` and `Code/Rebuild`, with a record of the callbacks that are called. `Props/Evaluations`
proves that apart from the record these are the same functions.
-/
namespace Denorm

/-- The callback of a field was called for an instance, given by its content type and the primary key it had. -/
structure Evaluation where
  instance_ : Mark
  field : Col
deriving DecidableEq, Repr

/-- Calls of callbacks, in order, and the outcome. -/
abbrev Recorded (α : Type) := List Evaluation × Except OrmErr α

/-- `field.pre_save(instance, add)`: `self.denorm.func(model_instance)` (fields.py:60) is called for `@denormalized` fields. -/
def SaveField.preSaveR (A : App) (m : Model) (db : Db) (add : Bool) (mem : Row) (f : SaveField) : Recorded Val :=
  match f.kind with
  | .callback cb => ([⟨⟨m.ct, mem m.pk⟩, f.col⟩], .ok (cb.value db mem))
  | _ => ([], f.preSave A m db add mem)

/-- `preSaveAll`, recorded: Django's `_save_table`, `pre_save` of every field in order. -/
def preSaveAllR (A : App) (m : Model) (db : Db) (add : Bool) : List SaveField → Row → Recorded Row
  | [], mem => ([], .ok mem)
  | f :: fs, mem =>
    match f.preSaveR A m db add mem with
    | (l, .ok v) => (l ++ (preSaveAllR A m db add fs (mem.set f.col v)).1, (preSaveAllR A m db add fs (mem.set f.col v)).2)
    | (l, .error e) => (l, .error e)

/-- `App.save`, recorded. -/
def App.saveR (A : App) (om : OrmModel) (mem : Row) (db : Db) : Recorded (Db × Row) :=
  match preSaveAllR A om.model db false om.saved mem with
  | (l, .error e) => (l, .error e)
  | (l, .ok mem1) =>
    if (db.rows om.model.table).any (isRowOf om.model (mem om.model.pk)) then
      (l, (A.exec (saveUpdate om mem1) db).map fun db' => (db', mem1))
    else
      match preSaveAllR A om.model db true om.saved mem1 with
      | (l', .error e) => (l ++ l', .error e)
      | (l', .ok mem2) => (l ++ l', (A.exec (.insert om.model.table [mem2]) db).map fun db' => (db', mem2))

/-- `App.create`, recorded. -/
def App.createR (A : App) (om : OrmModel) (mem : Row) (k : Val) (db : Db) : Recorded (Db × Row) :=
  match preSaveAllR A om.model db true om.saved mem with
  | (l, .error e) => (l, .error e)
  | (l, .ok mem1) =>
    (l, (A.exec (.insert om.model.table [mem1.set om.model.pk k]) db).map fun db' => (db', mem1.set om.model.pk k))

/-- `App.flushOne`, recorded (denorms.py:625-635). -/
def App.flushOneR (A : App) (m : Mark) (db : Db) : Recorded Db :=
  match A.contentObject db m with
  | .error e => ([], .error e)
  | .ok none => ([], .ok (db.dropMarks m))
  | .ok (some (om, r)) => ((A.saveR om r db).1, (A.saveR om r db).2.map fun p => p.1.dropMarks m)

/-- `App.flushList`, recorded. -/
def App.flushListR (A : App) : List Mark → Db → Recorded Db
  | [], db => ([], .ok db)
  | m :: ms, db =>
    match A.flushOneR m db with
    | (l, .ok db') => (l ++ (A.flushListR ms db').1, (A.flushListR ms db').2)
    | (l, .error e) => (l, .error e)

/-- `App.flush`, recorded (denorms.py:593-635). -/
def App.flushR (A : App) : Nat → Db → Recorded (Option Db)
  | n, db =>
    if db.dirty = [] then ([], .ok (some db))
    else match n with
      | 0 => ([], .ok none)
      | n + 1 =>
        match A.flushListR (A.snapshot db) db with
        | (l, .ok db') => (l ++ (A.flushR n db').1, (A.flushR n db').2)
        | (l, .error e) => (l, .error e)

/-- `App.rebuildall`, recorded (denorms.py:569-590). -/
def App.rebuildallR (A : App) (D : List Denorm) (modelName fieldName : Option String) (n : Nat) (db : Db) : Recorded (Option Db) :=
  A.flushR n (db.addMarks (rebuildMarks (rebuildModels D modelName fieldName) db))

end Denorm
