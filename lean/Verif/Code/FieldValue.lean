import Verif.Sql.Value
/-!
# What a `@denormalized` field does with the value its callback returns (fields.py:56-80, denorms.py:99-138)

`Code/Orm.lean` treats the callback's result as a column value. Here is the Python code in between: the callback may return a model
instance, and an instance has, besides the column's attribute, a cached related object.
-/
namespace Denorm

/-- A model instance as far as a ForeignKey cares: its class and the value of the column the ForeignKey points to. -/
structure Obj where
  cls : String
  key : Val
deriving DecidableEq, Repr

/-- A Python value: a plain value (`None` is `.null`) or a model instance. Python's `==` never identifies an instance with a plain
value, and identifies instances of the same class with the same key. -/
inductive PyVal where
  | val (v : Val)
  | obj (o : Obj)
deriving DecidableEq, Repr

/-- A field: `related` is the class its ForeignKey or OneToOneField points to, if it is one. `name` differs from `attname` exactly for
those. -/
structure DenormField where
  name : String
  attname : String
  related : Option String
deriving DecidableEq, Repr

/-- An instance in memory: attribute values and cached related objects by field name. -/
structure Inst where
  attrs : String → PyVal
  cache : String → Option Obj

/-- The Django at hand. `sub c d`: class `c` is `d` or a subclass. `clears`: assigning `instance.forum_id` drops a cached
`instance.forum` (ForeignKeyDeferredAttribute, since Django 3.0; tox.ini tests 1.8 to 2.0). `relatedField`: ForeignKeys have an attribute
`related_field` (denorms.py:133). -/
structure Django where
  sub : String → String → Bool
  clears : Bool
  relatedField : Bool

/-- `setattr(instance, field.attname, value)`. For a field that is not a relation this is any attribute assignment. -/
def Inst.setAtt (dj : Django) (i : Inst) (f : DenormField) (v : PyVal) : Inst :=
  { attrs := fun a => if a = f.attname then v else i.attrs a
    cache := fun n => if dj.clears && decide (n = f.name) && decide (i.attrs f.attname ≠ v) then none else i.cache n }

/-- `setattr(instance, field.name, obj)` of a ForeignKey (ForwardManyToOneDescriptor.__set__): copies the key and caches the object. -/
def Inst.setRel (i : Inst) (f : DenormField) (o : Obj) : Inst :=
  { attrs := fun a => if a = f.attname then .val o.key else i.attrs a
    cache := fun n => if n = f.name then some o else i.cache n }

/-- The key of the object that `getattr(instance, field.name)` returns: of the cached object, or of the one the attribute refers to. -/
def Inst.relKey (i : Inst) (f : DenormField) : PyVal :=
  match i.cache f.name with
  | some o => .val o.key
  | none => i.attrs f.attname

/-- `DenormDBField.pre_save` (fields.py:56-80) for the callback's value; returns the value for the column and the instance.
`related_field_model` (fields.py:62-73) is found in every supported Django, under one name or another. -/
def DenormField.preSave (dj : Django) (f : DenormField) (value : PyVal) (i : Inst) : PyVal × Inst :=
  match f.related, value with
  | some cls, .obj o =>
    if dj.sub o.cls cls then
      let i' := (i.setAtt dj f (.val .null)).setRel f o
      (i'.attrs f.attname, i')
    else (value, i.setAtt dj f value)
  | _, _ => (value, i.setAtt dj f value)

/-- What `Denorm.update` returns: `None`, or the dictionary of changed fields. -/
abbrev Report := Option (List (String × PyVal))

/-- `Denorm.update(instance)` for a field that is not a ManyToManyField (denorms.py:105-114, 132-138). -/
def DenormField.update (dj : Django) (f : DenormField) (func : Inst → PyVal) (i : Inst) : Report × Inst :=
  let new := func i
  if i.attrs f.attname ≠ new then
    (some [(f.name, new)],
      match f.related, new with
      | some cls, .obj o => if dj.relatedField && dj.sub o.cls cls then (i.setAtt dj f (.val .null)).setRel f o else i.setAtt dj f new
      | _, _ => i.setAtt dj f new)
  else (none, i)

/-- `x.pk if hasattr(x, 'pk') else x` (denorms.py:122-128) -/
def PyVal.pkOf : PyVal → Val
  | .obj o => o.key
  | .val v => v

/-- `Denorm.update(instance)` for a ManyToManyField (denorms.py:116-130): `old` are the keys of `attr.all()`, `new` what the callback
returns, instances or keys. Returns the report and, if the relation is assigned, the list it is assigned. -/
def updateM2M (old : List Val) (new : List PyVal) : Report × Option (List PyVal) :=
  let newPks := new.map PyVal.pkOf
  if (∀ v ∈ old, v ∈ newPks) ∧ ∀ v ∈ newPks, v ∈ old then (none, none) else (some [], some new)

end Denorm
