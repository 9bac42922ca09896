import Verif.Code.Trigger
/-!
# Where a Trigger gets its fields from (db/base.py)

`Code/Trigger` takes the fields of a model as a list. Here they come from Django's `_meta.get_fields()`, which has everything that leads from or to a model, and
`Trigger.__init__` picks what it can use. Taken from Django (1.8 and later): the attributes of what is in this list.
-/
namespace Denorm

/-- What `_meta.get_fields()` of a model contains. `owner` is `repr(f.model)`. -/
inductive MetaField where
  /-- a field without a relation, or a ForeignKey -/
  | column (f : Field) (owner : String)
  /-- a OneToOneField -/
  | oneToOne (f : Field) (owner : String)
  | manyToMany (f : M2M) (owner : String)
  | genericRelation (g : GenericRel) (owner : String)
  | genericForeignKey (name : String) (owner : String)
  /-- a ForeignKey, OneToOneField or ManyToManyField of another model that points here -/
  | manyToOneRel (name : String) (owner : String)
  | oneToOneRel (name : String) (owner : String)
  | manyToManyRel (name : String) (owner : String)
deriving DecidableEq, Repr

namespace MetaField

/-- `f.model` -/
def owner : MetaField → String
  | column _ o | oneToOne _ o | manyToMany _ o | genericRelation _ o | genericForeignKey _ o | manyToOneRel _ o | oneToOneRel _ o | manyToManyRel _ o => o

/-- `f.is_relation` -/
def isRelation : MetaField → Bool
  | column f _ => f.target.isSome
  | _ => true

/-- `f.one_to_one`, which is also true of the other side -/
def isOneToOne : MetaField → Bool
  | oneToOne _ _ | oneToOneRel _ _ => true
  | _ => false

/-- `f.many_to_one and f.related_model`; a GenericForeignKey has no `related_model` -/
def isManyToOne : MetaField → Bool
  | column f _ => f.target.isSome
  | _ => false

/-- `f.attname`; what leads here from another model has no such attribute -/
def attname : MetaField → Option Col
  | column f _ | oneToOne f _ => some f.attname
  | manyToMany f _ => some f.attname
  | genericRelation g _ => some g.attname
  | genericForeignKey _ _ | manyToOneRel _ _ | oneToOneRel _ _ | manyToManyRel _ _ => none

/-- `isinstance(f, ForeignObjectRel)` -/
def isRel : MetaField → Bool
  | manyToOneRel _ _ | oneToOneRel _ _ | manyToManyRel _ _ => true
  | _ => false

end MetaField

/-- `get_fields_with_model(model, meta)` (base.py:55-64). -/
def getFieldsWithModel (model : String) (listed : List MetaField) : List (MetaField × Option String) :=
  (listed.filter fun f => !f.isRelation || f.isOneToOne || f.isManyToOne).map fun f => (f, if f.owner ≠ model then some f.owner else none)

/-- The attribute that `Trigger.__init__` asked for is missing. -/
structure NoAttname where
  name : MetaField
deriving DecidableEq

/-- The fields of a trigger on the table that a GenericRelation leads to (base.py:97): `k.attname` of each, without a look at what it is. -/
def genericFields (model : String) (listed : List MetaField) : Except NoAttname (List Col) :=
  (getFieldsWithModel model listed).foldr (fun p r =>
    match p.2 with
    | some _ => r
    | none =>
      match p.1.attname with
      | some a => r.map (a :: ·)
      | none => .error ⟨p.1⟩) (.ok [])

/-- The fields of a trigger on the table of a model (base.py:111-122). -/
def modelFields (model : String) (listed : List MetaField) (skip : List String) : Except NoAttname (List Col) :=
  (getFieldsWithModel model listed).foldr (fun p r =>
    if p.1.isRel then r
    else
      match p.2 with
      | some _ => r
      | none =>
        match p.1.attname with
        | some a => if skip.contains a then r else r.map (a :: ·)
        | none => .error ⟨p.1⟩) (.ok [])

/-- `Trigger.__init__` (base.py:69-125), with `listed` for the `get_fields()` of the model (for a GenericRelation: of the model it leads to). Simplified: a
ForeignKey as subject, which the library does not use, is treated as its model (base.py:100-104 has the comprehension of line 97 with `skip`). -/
def reflectTrigger (listed : List MetaField) (subject : Subject) (event : Event) (actions : List Action) (contentType : Nat) (skip : List String) : Except NoAttname PyTrigger :=
  match subject with
  | .m2m f => .ok ⟨f.through, event, actions, contentType, none, [f.colName, f.revName]⟩
  | .generic g => (genericFields (g.target.getD "None") listed).map fun fs => ⟨g.remoteTable, event, actions, contentType, some (g.ctFieldName ++ "_id"), fs⟩
  | .fk m => (modelFields m.repr listed (effectiveSkip skip m)).map fun fs => ⟨m.table, event, actions, contentType, none, fs⟩
  | .model m => (modelFields m.repr listed (effectiveSkip skip m)).map fun fs => ⟨m.table, event, actions, contentType, none, fs⟩

end Denorm
