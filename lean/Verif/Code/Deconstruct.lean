import Verif.Code.Daemon
/-!
# Constructing and deconstructing fields (fields.py)

`deconstruct()` tells Django's migrations how to write a field: the path of a class, positional arguments and keyword arguments. The migration
calls the class with these arguments.

Django's own side, `Field.__init__` and `Field.deconstruct` (django/db/models/fields/__init__.py), is modelled here too: a field has a
table of options with default values; `deconstruct` gives the options whose values are not the default.
-/
namespace Denorm

/-- The Python values that occur as arguments. -/
inductive ArgVal where
  | none
  | bool (b : Bool)
  | int (i : Int)
  | str (s : String)
  /-- a dictionary of lookups, `{'active__exact': True}` -/
  | dict (l : List (String × String))
  | list (l : List String)
  /-- `NOT_PROVIDED` -/
  | notProvided
  /-- any other object -/
  | obj (id : Nat)
deriving DecidableEq, Repr

/-- `bool(v)` -/
def ArgVal.truthy : ArgVal → Bool
  | .none => false
  | .bool b => b
  | .int i => i != 0
  | .str s => s != ""
  | .dict l => !l.isEmpty
  | .list l => !l.isEmpty
  | .notProvided => true
  | .obj _ => true

/-- Keyword arguments. -/
abbrev Kwargs := List (String × ArgVal)

/-- `kwargs.get(k)` -/
def Kwargs.get? : Kwargs → String → Option ArgVal
  | [], _ => Option.none
  | (k', v) :: kw, k => if k' = k then some v else Kwargs.get? kw k

/-- `del kwargs[k]`, also the kwargs after `kwargs.pop(k, …)` -/
def Kwargs.del (kw : Kwargs) (k : String) : Kwargs := kw.filter (·.1 ≠ k)

/-- `kwargs[k] = v` -/
def Kwargs.set (kw : Kwargs) (k : String) (v : ArgVal) : Kwargs := (k, v) :: kw.del k

/-- `kwargs.pop(k, d)`: the value -/
def Kwargs.pop (kw : Kwargs) (k : String) (d : ArgVal) : ArgVal := (kw.get? k).getD d

def typeError (s : String) : Exc := ⟨.named "TypeError", s⟩

/-- A field class of Django or of a third party, as far as migrations use it: its path, its constructor, and `deconstruct`, which gives arguments from which the
constructor makes the same field. That it does so is what Django demands of every field class. -/
structure FieldClass where
  path : String
  Field : Type
  init : List ArgVal → Kwargs → Except Exc Field
  deconstruct : Field → List ArgVal × Kwargs
  roundTrip : ∀ {args kw f}, init args kw = .ok f → init (deconstruct f).1 (deconstruct f).2 = .ok f

/-! ## Fields without arguments of their own: PositiveIntegerField, BigIntegerField -/

/-- The options and their defaults (`possibles` in Field.deconstruct). -/
def fieldOptions : Kwargs :=
  [("verbose_name", .none), ("primary_key", .bool false), ("max_length", .none), ("unique", .bool false), ("blank", .bool false),
   ("null", .bool false), ("db_index", .bool false), ("default", .notProvided), ("editable", .bool true), ("serialize", .bool true),
   ("unique_for_date", .none), ("unique_for_month", .none), ("unique_for_year", .none), ("choices", .list []), ("help_text", .str ""),
   ("db_column", .none), ("db_tablespace", .str ""), ("auto_created", .bool false), ("validators", .list []), ("error_messages", .none)]

/-- The attributes of a field, by option. -/
abbrev Attrs := String → ArgVal

/-- The default of an option. -/
def optionDefault (o : String) : ArgVal := (fieldOptions.get? o).getD .none

/-- `Field.__init__`: the first positional argument is `verbose_name`; other positional arguments are not modelled. -/
def plainInit (args : List ArgVal) (kw : Kwargs) : Except Exc Attrs :=
  match kw.find? (fun p => (fieldOptions.get? p.1).isNone) with
  | some p => .error (typeError p.1)
  | Option.none =>
    match args with
    | [] => .ok fun o => (kw.get? o).getD (optionDefault o)
    | [v] =>
      if (kw.get? "verbose_name").isSome then .error (typeError "verbose_name")
      else .ok fun o => ((kw.set "verbose_name" v).get? o).getD (optionDefault o)
    | _ => .error (typeError "too many arguments")

/-- `Field.deconstruct` -/
def plainDeconstruct (a : Attrs) : Kwargs :=
  fieldOptions.filterMap fun p => if a p.1 = p.2 then Option.none else some (p.1, a p.1)

/-! ## @denormalized (fields.py:28-100) -/

/-- A field made by `@denormalized(DBField, *args, **kwargs)`. -/
structure DenormDBField (F : FieldClass) where
  func : ArgVal
  skip : ArgVal
  /-- what `DBField.__init__` has made of it -/
  base : F.Field

/-- `DenormDBField.__init__` (fields.py:34-38). -/
def DenormDBField.init (F : FieldClass) (func : ArgVal) (args : List ArgVal) (kw : Kwargs) : Except Exc (DenormDBField F) := do
  let skip := kw.pop "skip" .none
  let kw := kw.del "skip"
  let kw := kw.set "editable" (.bool false)
  let base ← F.init args kw
  pure { func, skip, base }

/-- What `deconstruct()` returns; the name, which the model class sets, is left out. -/
structure Deconstructed where
  path : String
  args : List ArgVal
  kwargs : Kwargs

/-- `DenormDBField.deconstruct` (fields.py:92-95). -/
def DenormDBField.deconstruct {F : FieldClass} (f : DenormDBField F) : Except Exc Deconstructed := do
  let (args, kwargs) := F.deconstruct f.base
  let _ ← F.init args kwargs
  pure { path := F.path, args, kwargs }

/-! ## CountField and SumField (fields.py:103-235) -/

inductive AggKind where | count | sum
deriving DecidableEq, Repr

/-- The path of the class. -/
def AggKind.path : AggKind → String
  | .count => "denorm.fields.CountField"
  | .sum => "denorm.fields.SumField"

structure AggregateField where
  kind : AggKind
  manager : ArgVal
  filter : ArgVal
  exclude : ArgVal
  skip : ArgVal
  /-- the summed field, SumField only -/
  field : ArgVal
  attrs : Attrs

/-- `AggregateField.__init__` (fields.py:111-140). -/
def AggregateField.init (sqlite : Bool) (kind : AggKind) (manager field : ArgVal) (kw : Kwargs) : Except Exc AggregateField := do
  let skip := kw.pop "skip" .none
  let kw := kw.del "skip"
  let filter := kw.pop "filter" (.dict [])
  let kw := kw.del "filter"
  if filter.truthy && sqlite then
    throw ⟨.named "NotImplementedError", "filters for aggregate fields are currently not supported for sqlite"⟩
  let exclude := kw.pop "exclude" (.dict [])
  let kw := kw.del "exclude"
  let kw := kw.set "default" (.int 0)
  let kw := kw.set "editable" (.bool false)
  let attrs ← plainInit [] kw
  pure { kind, manager, filter, exclude, skip, field, attrs }

/-- A parameter that may be given by position (already taken from the positional arguments) or by keyword. -/
def bindArg (pos : Option ArgVal) (kw : Kwargs) (k : String) : Except Exc (ArgVal × Kwargs) :=
  match pos, kw.get? k with
  | some _, some _ => .error (typeError k)
  | some v, Option.none => .ok (v, kw)
  | Option.none, some v => .ok (v, kw.del k)
  | Option.none, Option.none => .ok (.none, kw)

/-- `CountField(manager_name=None, **kwargs)` (fields.py:196-214). -/
def countField (sqlite : Bool) (args : List ArgVal) (kw : Kwargs) : Except Exc AggregateField := do
  if args.length > 1 then throw (typeError "too many arguments")
  let (manager, kw) ← bindArg args[0]? kw "manager_name"
  let kw := kw.set "editable" (.bool false)
  AggregateField.init sqlite .count manager .none kw

/-- `SumField(manager_name=None, field=None, **kwargs)` (fields.py:229-235). -/
def sumField (sqlite : Bool) (args : List ArgVal) (kw : Kwargs) : Except Exc AggregateField := do
  if args.length > 2 then throw (typeError "too many arguments")
  let (manager, kw) ← bindArg args[0]? kw "manager_name"
  let (field, kw) ← bindArg args[1]? kw "field"
  let kw := kw.set "editable" (.bool false)
  AggregateField.init sqlite .sum manager field kw

/-- The class at a path. -/
def aggregateClass (sqlite : Bool) : AggKind → List ArgVal → Kwargs → Except Exc AggregateField
  | .count => countField sqlite
  | .sum => sumField sqlite

/-- `AggregateField.deconstruct` (fields.py:180-184); `super().deconstruct()` gives the path of the field's class. `del kwargs['editable']` raises a KeyError
if it is not there. -/
def AggregateField.deconstruct (f : AggregateField) : Except Exc Deconstructed :=
  let kwargs := plainDeconstruct f.attrs
  match kwargs.get? "editable" with
  | Option.none => .error ⟨.named "KeyError", "editable"⟩
  | some _ =>
    .ok { path := f.kind.path, args := [f.manager], kwargs := kwargs.del "editable" }

/-! ## CacheKeyField (fields.py:245-294) -/

/-- `CacheKeyField(**kwargs)` (fields.py:254-263): the dependencies are declared by method calls, not by arguments. -/
def cacheKeyField (args : List ArgVal) (kw : Kwargs) : Except Exc Attrs := do
  if !args.isEmpty then throw (typeError "too many arguments")
  let kw := kw.set "default" (.int 0)
  let kw := kw.set "editable" (.bool false)
  plainInit [] kw

/-- `CacheKeyField` has no `deconstruct` of its own. -/
def cacheKeyDeconstruct (a : Attrs) : Deconstructed := { path := "denorm.fields.CacheKeyField", args := [], kwargs := plainDeconstruct a }

/-- `CachedField(func=None, cache=None, *args, **kwargs)` (fields.py:310-317), as far as its attributes go. -/
def cachedField (args : List ArgVal) (kw : Kwargs) : Except Exc Attrs := do
  let (_, kw) ← bindArg args[0]? kw "func"
  let (_, kw) ← bindArg args[1]? kw "cache"
  cacheKeyField (args.drop 2) kw

def cachedDeconstruct (a : Attrs) : Deconstructed := { path := "denorm.fields.CachedField", args := [], kwargs := plainDeconstruct a }

end Denorm
