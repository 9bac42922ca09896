import Verif.Code.GetTriggers
/-!
# Importing model classes: from the decorators to resolved dependencies

`@depend_on_related`, `@denormalized`, `CacheKeyField.depend_on_related`, the `contribute_to_class` methods, Django's `class_prepared`
signal and lazy relations. Dependency objects and denorm objects have identity: they are kept in lists and referred to by position, so
that two fields can share one.

What is taken from Django: a field of an abstract base class is contributed to the abstract class and, as a *shallow* copy
(`Field.__deepcopy__`), to every class that inherits from it; `class_prepared` is sent once for each class that is not abstract, before the
class is registered, and runs the receivers in the order in which they were connected; `lazy_related_operation` runs a function as
soon as both models are registered (`_pending_operations`).

Simplifications: the metadata of a class is complete from the start (in the code a ForeignKey given as a string to a class that does not
exist yet is not found by `find_fks`); the import goes wrong at the first exception; a class whose label is registered already is an
error; pending operations run in the order in which they were requested.
-/
namespace Denorm

/-- The first argument of depend_on_related: a model class, `'self'`, or the name of a model (with or without app label). -/
inductive OtherRef where
  | cls (m : Model)
  | self
  | name (s : String)
deriving DecidableEq, Repr

/-- The arguments of depend_on_related. -/
structure DepSpec where
  other : OtherRef
  fkName : Option String := none
  type : Option RelType := none
  skip : List String := []
deriving DecidableEq, Repr

/-- A Python function with its attribute `depend`, if it has one. -/
structure Func where
  depend : Option (List DepSpec) := none

/-- `depend_on_related(*args, **kwargs)` applied to a function (dependencies.py:424-430). -/
def dependOnRelated (args : DepSpec) (f : Func) : Func :=
  match f.depend with
  | none => { f with depend := some ([] ++ [args]) }
  | some l => { f with depend := some (l ++ [args]) }

/-- `getattr(func, 'depend', [])` -/
def Func.depends (f : Func) : List DepSpec := f.depend.getD []

/-- A `DependOnRelated` object (dependencies.py:37-42). -/
structure DepObj where
  other : OtherRef
  fkName : Option String
  type : Option RelType
  skip : List String
  /-- `this_model` (dependencies.py:34), unset before setup() -/
  this : Option Model := none
  /-- `field`, together with the `type` it was found with (dependencies.py:92) -/
  rel : Option Rel := none
  /-- `fieldname` (fields.py:275) -/
  fieldname : Option Col := none

/-- `DependOnRelated.__init__` -/
def DepSpec.new (s : DepSpec) : DepObj := { other := s.other, fkName := s.fkName, type := s.type, skip := s.skip }

inductive DenormKind where
  | callback | cacheKey
deriving DecidableEq, Repr

/-- A class statement: its number, the metadata, and whether it is abstract. -/
structure Cls where
  id : Nat
  model : Model
  abstract : Bool

/-- A `CallbackDenorm` or `BaseCacheKeyDenorm` object. -/
structure DenormObj where
  kind : DenormKind
  cls : Cls
  fieldname : Col
  /-- the positions of the dependency objects -/
  depend : List Nat
  /-- `func.depend`, or the arguments of the calls of `field.depend_on_related` -/
  specs : List DepSpec

/-- A CacheKeyField object: the positions of `self.dependencies`, and the calls of depend_on_related they come from. A shallow copy has the
same list. -/
structure KeyFieldObj where
  dependencies : List Nat
  specs : List DepSpec

structure World where
  deps : List DepObj := []
  denorms : List DenormObj := []
  keys : List KeyFieldObj := []
  /-- receivers of class_prepared in the order of connection: the denorm, and the class (`sender=`) or `none` for every class -/
  receivers : List (Nat × Option Nat) := []
  /-- the models in the app registry -/
  registered : List Model := []
  /-- operations that wait for models: the dependency object, `this_model`, and the name of the other model -/
  pending : List (Nat × Model × String) := []
  classes : Nat := 0

inductive ImportErr where
  | resolve (e : ResolveErr)
  | conflict
deriving DecidableEq, Repr

/-- Two models have the same key in the registry (app label and lower-cased name). -/
def Model.sameLabel (a b : Model) : Bool := a.appLabel == b.appLabel && lower a.name == lower b.name

/-- The key in the registry that the name `s`, written in model `this`, stands for: `resolve_relation` puts the app label of `this` before a name without a
dot, `make_model_tuple` splits at the dot and lower-cases the second part. Simplified: a name with two dots (ValueError) is split at the first. -/
def Model.keyOf (this : Model) (s : String) : List Char × List Char :=
  if '.' ∈ s.toList then (s.toList.takeWhile (· != '.'), ((s.toList.dropWhile (· != '.')).drop 1).map Char.toLower)
  else (this.appLabel.toList, s.toList.map Char.toLower)

/-- The name `s`, written in model `this`, means model `m`. -/
def Model.calls (this : Model) (s : String) (m : Model) : Bool := this.keyOf s == (m.appLabel.toList, m.name.toList.map Char.toLower)

def World.setDep (w : World) (a : Nat) (f : DepObj → DepObj) : World := { w with deps := w.deps.modify a f }

/-- `resolved_model` (dependencies.py:64-92) of the dependency object `a`. -/
def World.resolve (w : World) (a : Nat) (other : Model) : Except ImportErr World :=
  match w.deps[a]? with
  | none => .ok w
  | some o =>
    match o.this with
    | none => .ok w
    | some this =>
      match resolvedModel this other o.fkName o.type with
      | .error e => .error (.resolve e)
      | .ok r => .ok (w.setDep a fun o => { o with other := .cls other, type := some r.type, rel := some r })

/-- `lazy_related_operation(function, this_model, name)`: at once when both models are registered. -/
def World.ready (w : World) (this : Model) (s : String) : Option Model :=
  if w.registered.any this.sameLabel then w.registered.find? (this.calls s) else none

/-- `DependOnRelated.setup(this_model)` (dependencies.py:44-62) of the dependency object `a`. -/
def World.setupDep (w : World) (a : Nat) (this : Model) : Except ImportErr World :=
  let w1 := w.setDep a fun o => { o with this := some this, other := if o.other = .self then .cls this else o.other }
  match w1.deps[a]? with
  | none => .ok w1
  | some o =>
    match o.other with
    | .name s =>
      match w1.ready this s with
      | some m => w1.resolve a m
      | none => .ok { w1 with pending := w1.pending ++ [(a, this, s)] }
    | .cls m => w1.resolve a m
    | .self => .ok w1

/-- `for dependency in self.depend: dependency.setup(self.model)` (denorms.py:157-158, 213-214). -/
def World.setupDeps (w : World) (this : Model) : List Nat → Except ImportErr World
  | [] => .ok w
  | a :: l =>
    match w.setupDep a this with
    | .ok w' => w'.setupDeps this l
    | .error e => .error e

/-- `class_prepared.send(sender=cls)`. -/
def World.send (w : World) (cls : Nat) : List (Nat × Option Nat) → Except ImportErr World
  | [] => .ok w
  | (i, sender) :: l =>
    if sender = none ∨ sender = some cls then
      match w.denorms[i]? with
      | none => w.send cls l
      | some d =>
        match w.setupDeps d.cls.model d.depend with
        | .ok w' => w'.send cls l
        | .error e => .error e
    else w.send cls l

/-- A field in a class statement: a @denormalized field, or the CacheKeyField object number `i` (or a shallow copy of it). -/
inductive FieldRef where
  | callback (f : Func)
  | key (i : Nat)

/-- `DenormDBField.contribute_to_class` (fields.py:39-54) and `CacheKeyField.contribute_to_class` (fields.py:273-280). -/
def World.contribute (w : World) (c : Cls) (name : Col) : FieldRef → World
  | .callback f =>
    { w with
      deps := w.deps ++ f.depends.map DepSpec.new
      denorms := w.denorms ++ [⟨.callback, c, name, List.range' w.deps.length f.depends.length, f.depends⟩]
      receivers := w.receivers ++ [(w.denorms.length, some c.id)] }
  | .key i =>
    let k := w.keys[i]?.getD ⟨[], []⟩
    { k.dependencies.foldl (fun w a => w.setDep a fun o => { o with fieldname := some name }) w with
      denorms := w.denorms ++ [⟨.cacheKey, c, name, k.dependencies, k.specs⟩]
      receivers := w.receivers ++ [(w.denorms.length, none)] }

def World.contributeAll (w : World) (c : Cls) : List (Col × FieldRef) → World
  | [] => w
  | (n, f) :: l => (w.contribute c n f).contributeAll c l

/-- The pending operations that can run after a registration. -/
def World.runPending (w : World) : List (Nat × Model × String) → Except ImportErr World
  | [] => .ok w
  | (a, this, s) :: l =>
    match w.ready this s with
    | some m =>
      match w.resolve a m with
      | .ok w' => w'.runPending l
      | .error e => .error e
    | none => { w with pending := w.pending ++ [(a, this, s)] }.runPending l

/-- `apps.register_model`. -/
def World.register (w : World) (m : Model) : Except ImportErr World :=
  if w.registered.any m.sameLabel then .error .conflict
  else { w with registered := w.registered ++ [m], pending := [] }.runPending w.pending

inductive PyStmt where
  /-- `k = CacheKeyField()` followed by `k.depend_on_related(..)` for each of the arguments (fields.py:266-271); also what
  `CachedField.__init__` does (fields.py:317-319) -/
  | keyField (specs : List DepSpec)
  /-- `class M(Model)`: the fields contributed to it, inherited ones of abstract bases included -/
  | cls (m : Model) (abstract : Bool) (fields : List (Col × FieldRef))

def World.exec (w : World) : PyStmt → Except ImportErr World
  | .keyField specs =>
    .ok { w with
      deps := w.deps ++ specs.map DepSpec.new
      keys := w.keys ++ [⟨List.range' w.deps.length specs.length, specs⟩] }
  | .cls m abstract fields =>
    let w1 := { w with classes := w.classes + 1 }.contributeAll ⟨w.classes, m, abstract⟩ fields
    if abstract then .ok w1
    else
      match w1.send w.classes w1.receivers with
      | .error e => .error e
      | .ok w2 => w2.register m

def World.run : List PyStmt → World → Except ImportErr World
  | [], w => .ok w
  | s :: ss, w =>
    match w.exec s with
    | .ok w' => World.run ss w'
    | .error e => .error e

/-- The dependency object as get_triggers uses it; `none`: `self.type` is not set, get_triggers raises ValueError. -/
def DepObj.dep (o : DepObj) : Option Dep :=
  match o.this, o.other, o.rel with
  | some this, .cls other, some r => some ⟨this, other, r, o.skip⟩
  | _, _, _ => none

/-- The dependencies of a denorm object. -/
def World.depsOf (w : World) (d : DenormObj) : List (Option Dep) := d.depend.map fun a => w.deps[a]?.bind DepObj.dep

/-- All of the options are values. -/
def allSome {α : Type _} : List (Option α) → Option (List α)
  | [] => some []
  | none :: _ => none
  | some x :: l =>
    match allSome l with
    | some l => some (x :: l)
    | none => none

/-- The denorm object as get_triggers uses it (see `Denorm.triggers`); `none` when a dependency raises ValueError. The `skip` argument of
@denormalized is left out (the class statements here do not have it). -/
def World.declaration (w : World) (bulkUnsafe : Bool) (d : DenormObj) : Option Denorm :=
  match allSome (w.depsOf d) with
  | none => none
  | some deps =>
    match d.kind with
    | .callback => some (.callback bulkUnsafe d.cls.model d.fieldname [] deps)
    | .cacheKey => some (.cacheKey d.cls.model d.fieldname deps)

/-- What `get_alldenorms()` yields (denorms.py:66-77): the denorms of the classes that are in the registry, abstract ones are not. The order is that of
the class statements. -/
def World.declarations (w : World) (bulkUnsafe : Bool) : Option (List Denorm) :=
  allSome ((w.denorms.filter fun d => !d.cls.abstract).map (w.declaration bulkUnsafe))

end Denorm
