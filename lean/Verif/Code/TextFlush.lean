import Verif.Sql.KeyText
import Verif.Code.Rebuild
/-!
# flush() over the marker table as it is (models.py, denorms.py:536-635)

The other modules keep the key itself in a marker. Here the marker table has a text column, the triggers write texts into it, flush() reads the key back from the text, and
markers are deleted by comparing texts. Not modelled: MySQL's collations (under which two texts may count as equal).
-/
namespace Denorm

/-- A row of `denorm_dirtyinstance` (models.py:17-18). -/
structure TextMark where
  ct : Nat
  oid : Option Txt
deriving DecidableEq, Repr

/-- A database with its marker table. (The list `db.dirty` is not used.) -/
structure Disk where
  db : Db
  marks : List TextMark

/-- What an INSERT of `(content_type_id, object_id)` stores. -/
def Mark.written (m : Mark) : TextMark := ⟨m.ct, m.oid.asText⟩

/-- Carries out one item of a running statement, see `Engine.step`: the INSERTs of trigger actions (base.py:10-36) store texts. -/
def Engine.stepText (E : Engine) : Item → Disk → Except DbErr (List Item × Disk)
  | .write fr t ops, x => .ok ((applyOps E t ops x.db).2.flatMap (E.fired fr), { x with db := (applyOps E t ops x.db).1 })
  | .act _ ch (.markValues ct s c _), x => .ok ([], { x with marks := x.marks ++ [⟨ct, (ch.side s c).asText⟩] })
  | .act _ ch (.markSelect ct sel t k s c _), x =>
    .ok ([], { x with marks := x.marks ++ (selectMarks ct sel (x.db.rows t) k (ch.side s c)).map Mark.written })
  | .act fr ch (.update u), x =>
    if E.backend = .mysql ∧ u.table ∈ fr.tables then .error (.tableInUse u.table)
    else .ok (writes E.backend fr u.table (u.ops ch x.db), x)

/-- See `Engine.drain`. -/
def Engine.drainText (E : Engine) : Nat → List Item → Disk → Except DbErr Disk
  | _, [], x => .ok x
  | 0, _ :: _, _ => .error .depth
  | n + 1, it :: W, x =>
    match E.stepText it x with
    | .ok (new, x') => E.drainText n (new ++ W) x'
    | .error e => .error e

/-- Executes a statement, see `Engine.exec`. -/
def Engine.execText (E : Engine) (fuel : Nat) (s : Stmt) (x : Disk) : Except DbErr Disk := E.drainText fuel (E.start s x.db) x

/-- Executes a history of statements, see `Engine.run`. -/
def Engine.runText (E : Engine) (fuel : Nat) : List Stmt → Disk → Disk
  | [], x => x
  | s :: ss, x =>
    match E.execText fuel s x with
    | .ok x' => E.runText fuel ss x'
    | .error _ => E.runText fuel ss x

/-- A project, see `App`; `keyType` is the type of the primary key of the model with a given content type. -/
structure TextApp where
  engine : Engine
  models : List OrmModel
  keyType : Nat → KeyType
  arrange : List TextMark → List TextMark
  pyRand : Disk → Row → Col → Int
  fuel : Nat

/-- Errors that leave flush(). -/
inductive TextErr where
  | orm (e : OrmErr)
  /-- the text of a marker is no key of the model (ValueError or ValidationError from `to_python`) -/
  | badKey
deriving DecidableEq, Repr

/-- The fields' `pre_save` methods do not look at the marker table; what they see of the project and the database. -/
def TextApp.view (T : TextApp) (x : Disk) : App := ⟨T.engine, T.models, id, fun _ => T.pyRand x, T.fuel⟩

/-- Runs a statement. -/
def TextApp.exec (T : TextApp) (s : Stmt) (x : Disk) : Except TextErr Disk :=
  match T.engine.execText T.fuel s x with
  | .ok x' => .ok x'
  | .error e => .error (.orm (.db e))

/-- `instance.save()`, see `App.save`. -/
def TextApp.save (T : TextApp) (om : OrmModel) (mem : Row) (x : Disk) : Except TextErr (Disk × Row) :=
  match preSaveAll (T.view x) om.model x.db false om.saved mem with
  | .error e => .error (.orm e)
  | .ok mem1 =>
    if (x.db.rows om.model.table).any (isRowOf om.model (mem om.model.pk)) then
      match T.exec (saveUpdate om mem1) x with
      | .ok x' => .ok (x', mem1)
      | .error e => .error e
    else
      match preSaveAll (T.view x) om.model x.db true om.saved mem1 with
      | .error e => .error (.orm e)
      | .ok mem2 =>
        match T.exec (.insert om.model.table [mem2]) x with
        | .ok x' => .ok (x', mem2)
        | .error e => .error e

/-- `dirty_instance.content_object` (denorms.py:629): Django asks for the row of the model whose primary key is the text, which the key's field turns into a key first. -/
def TextApp.contentObject (T : TextApp) (x : Disk) (m : TextMark) : Except TextErr (Option (OrmModel × Row)) :=
  match T.models.find? fun om => om.model.ct == m.ct with
  | none => .error (.orm .noModel)
  | some om =>
    match m.oid with
    | none => .ok none
    | some s =>
      match (T.keyType m.ct).read T.engine.backend s with
      | none => .error .badKey
      | some v =>
        match (x.db.rows om.model.table).find? (isRowOf om.model v) with
        | none => .ok none
        | some r => .ok (some (om, r))

/-- `DirtyInstance.objects.filter(content_type_id=.., object_id=..).delete()` (denorms.py:632-635): the texts are compared. -/
def Disk.dropMarks (x : Disk) (m : TextMark) : Disk := { x with marks := x.marks.filter fun m' => m' ≠ m }

/-- denorms.py:629-630 -/
def TextApp.saveObject (T : TextApp) (m : TextMark) (x : Disk) : Except TextErr Disk :=
  match T.contentObject x m with
  | .error e => .error e
  | .ok none => .ok x
  | .ok (some (om, r)) =>
    match T.save om r x with
    | .ok (x', _) => .ok x'
    | .error e => .error e

/-- One round of the inner loop (denorms.py:625-635). -/
def TextApp.flushOne (T : TextApp) (m : TextMark) (x : Disk) : Except TextErr Disk :=
  match T.saveObject m x with
  | .ok x' => .ok (x'.dropMarks m)
  | .error e => .error e

/-- The markers a pass goes through (denorms.py:607-614, 625), see `App.snapshot`. -/
def TextApp.snapshot (T : TextApp) (x : Disk) : List TextMark :=
  match T.engine.backend with
  | .postgresql => dedup (T.arrange x.marks)
  | _ => T.arrange x.marks

def TextApp.flushList (T : TextApp) : List TextMark → Disk → Except TextErr Disk
  | [], x => .ok x
  | m :: ms, x =>
    match T.flushOne m x with
    | .ok x' => T.flushList ms x'
    | .error e => .error e

/-- One pass of the outer loop. -/
def TextApp.pass (T : TextApp) (x : Disk) : Except TextErr Disk := T.flushList (T.snapshot x) x

/-- `flush()` (denorms.py:593-635). `none`: still running after `n` passes. -/
def TextApp.flush (T : TextApp) : Nat → Disk → Except TextErr (Option Disk)
  | n, x =>
    if x.marks = [] then .ok (some x)
    else match n with
      | 0 => .ok none
      | n + 1 =>
        match T.pass x with
        | .ok x' => T.flush n x'
        | .error e => .error e

/-- The markers created by rebuildall() (denorms.py:553-565): `object_id=instance.pk`, turned into text by Python. -/
def TextApp.rebuildMarks (T : TextApp) (models : List Model) (x : Disk) : List TextMark :=
  models.flatMap fun m => (x.db.rows m.table).map fun r => ⟨m.ct, (T.keyType m.ct).pythonText (r m.pk)⟩

/-- `rebuildall()` (denorms.py:536-566). -/
def TextApp.rebuildall (T : TextApp) (alldenorms : List Denorm) (modelName fieldName : Option String) (n : Nat) (x : Disk) : Except TextErr (Option Disk) :=
  T.flush n { x with marks := x.marks ++ T.rebuildMarks (rebuildModels alldenorms modelName fieldName) x }

end Denorm
