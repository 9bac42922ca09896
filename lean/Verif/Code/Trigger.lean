import Verif.Code.Resolve
/-!
# Trigger objects and TriggerSet (db/base.py, name()/sql() of the backends)
-/
namespace Denorm

/-- What a Trigger is attached to (base.py:89-125). -/
inductive Subject where
  | model (m : Model)
  | m2m (f : M2M)
  | generic (g : GenericRel)
  /-- a ForeignKey declared on model `m`; never used by the library itself -/
  | fk (m : Model)
deriving DecidableEq, Repr

/-- A `Trigger` object (base.py:67-132). `time` is always "after". -/
structure PyTrigger where
  table : TableName
  event : Event
  actions : List Action
  contentType : Nat
  contentTypeField : Option Col
  fields : List Col
deriving DecidableEq, Repr

/-- `skip = skip or () + getattr(self.model, 'denorm_always_skip', ())` (base.py:103 and 111): `+` binds tighter
than `or`, so a non-empty `skip` hides `denorm_always_skip`. -/
def effectiveSkip (skip : List String) (m : Model) : List String :=
  if skip ≠ [] then skip else [] ++ m.alwaysSkip

/-- The local fields of a model by attname, minus `skip` (base.py:112-122 via get_fields_with_model 55-65:
concrete local fields; reverse relations, m2m fields and GenericForeignKeys are left out). -/
def watchedFields (m : Model) (skip : List String) : List Col :=
  ((m.fields.filter (·.isLocal)).map (·.attname)).filter fun a => !(effectiveSkip skip m).contains a

/-- `Trigger.__init__` (base.py:69-125). `skip = None` and `()` are both `[]` here. -/
def mkTrigger (subject : Subject) (event : Event) (actions : List Action) (contentType : Nat) (skip : List String) :
    PyTrigger :=
  match subject with
  | .m2m f => ⟨f.through, event, actions, contentType, none, [f.colName, f.revName]⟩
  | .generic g => ⟨g.remoteTable, event, actions, contentType, some (g.ctFieldName ++ "_id"), g.remoteFields⟩
  | .fk m => ⟨m.table, event, actions, contentType, none, watchedFields m skip⟩
  | .model m => ⟨m.table, event, actions, contentType, none, watchedFields m skip⟩

def Event.str : Event → String
  | .insert => "insert"
  | .update => "update"
  | .delete => "delete"

/-- `base.Trigger.name` (base.py:134-142). -/
def baseName (event : Event) (table : TableName) : String :=
  "_".intercalate ["denorm", "after", "row", event.str, "on", table]

/-- `Trigger.name` (base.py:134-142; overridden in sqlite3/triggers.py:54-58 and postgresql/triggers.py:58-62; MySQL
uses the base version). -/
def PyTrigger.name (b : Backend) (t : PyTrigger) : String :=
  match b, t.contentTypeField with
  | .mysql, _ => baseName t.event t.table
  | _, none => baseName t.event t.table
  | _, some _ => baseName t.event t.table ++ "_" ++ toString t.contentType

/-- A `TriggerSet`'s dict, in insertion order. -/
abbrev TriggerSet := List (String × PyTrigger)

/-- One step of `TriggerSet.append` (base.py:164-169): an existing trigger of that name only receives the actions; its
watched fields, content type and content type field stay. -/
def TriggerSet.add (b : Backend) (ts : TriggerSet) (t : PyTrigger) : TriggerSet :=
  match ts with
  | [] => [(t.name b, t)]
  | (n, t0) :: rest =>
    if n = t.name b then (n, { t0 with actions := t0.actions ++ t.actions }) :: rest
    else (n, t0) :: TriggerSet.add b rest t

/-- `TriggerSet.append(list)` (base.py:160-169). -/
def TriggerSet.append (b : Backend) (ts : TriggerSet) (trs : List PyTrigger) : TriggerSet :=
  trs.foldl (TriggerSet.add b) ts

/-- What `Trigger.sql` makes of the trigger, as an installed trigger: actions de-duplicated by their SQL and parameters
(two equal `Action`s have equal SQL; the rendering of different actions differs). -/
def PyTrigger.compile (name : String) (t : PyTrigger) : DbTrigger :=
  ⟨name, t.table, t.event, t.fields, t.contentTypeField, t.contentType, dedup t.actions⟩

end Denorm
