import Verif.Code.Classes
/-!
# Importing model classes whose relations are not complete yet

`Code/Classes` takes the metadata of a class as complete from the start. Here it grows: a relation field whose target is given as a string has, until Django has resolved
it, this string where the class should be, and the reverse manager (`item_set`) appears on the other class only then. `find_fks` and `find_m2ms` look at these strings, and
`AggregateDenorm.setup` looks for the manager; so it matters when they run.

What is taken from Django (1.9 and later): `RelatedField.contribute_to_class` asks with `lazy_related_operation` for the resolution of the field, as soon as its own class
and the target are registered, in this order; a class is registered after `class_prepared` was sent for it; `Apps.lazy_model_operation` keeps for each key that is not
registered yet the list of operations that wait for it, and `do_pending_operations` runs them in the order in which they came. An operation that waits for two models waits for
the first of them, and then, at the end of its list, for the second. Nothing is resolved for abstract classes.

Simplifications: only @denormalized fields and CountField/SumField (for CacheKeyFields see `Code/Classes`); each dependency object belongs to one field of one class
(`C30_callback`), so it is named by class, field and position; the class that a second class statement with the same label would give is refused at once (Django does so at the
end of the statement); the class that Django makes for a ManyToManyField is a class statement of its own, before that of the class with the field.
-/
namespace Denorm

/-- The key of a model in the registry: app label and lower-cased name. -/
def Model.regKey (m : Model) : List Char × List Char := (m.appLabel.toList, m.name.toList.map Char.toLower)

/-- The key of the model that a reference in class `this` stands for (`resolve_relation`, `make_model_tuple`). -/
def OtherRef.regKey (this : Model) : OtherRef → List Char × List Char
  | .cls m => m.regKey
  | .self => this.regKey
  | .name s => this.keyOf s

/-- How a relation field is written: `to`, the first argument of ForeignKey, ManyToManyField or GenericRelation, and the name of the manager that appears on the other class
(`related_name`; `none` if there is none). -/
structure RelDecl where
  attname : String
  to : OtherRef
  accessor : Option String := none
deriving DecidableEq, Repr

/-- A class statement. `model` is the metadata as it is when everything is resolved; `aggregates` are the CountFields and SumFields, by the number of the field object, which
shallow copies share with the field of the abstract base. -/
structure ClassSrc where
  model : Model
  abstract : Bool := false
  rels : List RelDecl := []
  callbacks : List (Col × Func) := []
  aggregates : List (Col × Nat) := []

/-- What Django is asked to do later: `resolve_related_class` for a relation field, or `resolved_model` for a dependency. -/
inductive LazyOp where
  | relation (m : Model) (r : RelDecl)
  | dep (this : Model) (field : Col) (j : Nat) (spec : DepSpec)
deriving DecidableEq

/-- The keys that an operation waits for. -/
def LazyOp.keys : LazyOp → (List Char × List Char) × (List Char × List Char)
  | .relation m r => (m.regKey, r.to.regKey m)
  | .dep this _ _ spec => (this.regKey, spec.other.regKey this)

/-- An AggregateDenorm object (denorms.py:308-310, fields.py:135-136, 144-146). `manager` is the relation the manager belongs to: the class with the ForeignKey, and its
name. -/
structure AggObj where
  managerName : String
  model : Option Model := none
  fieldname : Col := ""
  manager : Option (Model × String) := none

structure Loading where
  /-- the app registry -/
  registered : List Model := []
  /-- the relation fields that have a string for the class they point to: key of the class, name of the field, the string -/
  hidden : List ((List Char × List Char) × String × String) := []
  /-- the reverse managers: the class that has it, its name, the class with the relation field, the name of the field -/
  accessors : List (Model × String × Model × String) := []
  /-- `Apps._pending_operations`: what waits for which key -/
  pending : List ((List Char × List Char) × LazyOp) := []
  /-- the dependencies that are resolved -/
  deps : List ((Model × Col × Nat) × Dep) := []
  aggs : List AggObj := []

namespace Loading

/-- `repr` of a string. Simplified: quotes and backslashes in it are not escaped. -/
def pyRepr (s : String) : String := "'" ++ s ++ "'"

/-- What the relation field `attname` of the class with key `k` has for its class: `some s` if still the string `s`. -/
def string (L : Loading) (k : List Char × List Char) (attname : String) : Option String :=
  (L.hidden.find? fun h => h.1 = k ∧ h.2.1 = attname).map (·.2.2)

/-- `repr(remote_field_model(x))` (helpers.py:6-13) of a relation field whose class, when it is resolved, has the `repr` `t`. (`'self'` is replaced by the class at once,
line 9.) -/
def seenTarget (L : Loading) (k : List Char × List Char) (attname : String) (t : String) : String :=
  match L.string k attname with
  | some s => pyRepr s
  | none => t

/-- The metadata of a class as `find_fks` and `find_m2ms` see it now (helpers.py:21-24, 41-48). -/
def view (L : Loading) (m : Model) : Model :=
  { m with
    fields := m.fields.map fun f => { f with target := f.target.map (L.seenTarget m.regKey f.attname) }
    m2ms := m.m2ms.map fun f => { f with target := L.seenTarget m.regKey f.attname f.target }
    privates := m.privates.map fun g => { g with target := g.target.map (L.seenTarget m.regKey g.attname) } }

/-- The registered class with the key `k`. -/
def lookup (L : Loading) (k : List Char × List Char) : Option Model := L.registered.find? fun m => m.regKey = k

/-- `DependOnRelated.resolved_model` (dependencies.py:64-92). -/
def resolve (L : Loading) (this : Model) (field : Col) (j : Nat) (spec : DepSpec) (other : Model) : Except ImportErr Loading :=
  match resolvedModel (L.view this) (L.view other) spec.fkName spec.type with
  | .error e => .error (.resolve e)
  | .ok r => .ok { L with deps := L.deps ++ [((this, field, j), ⟨this, other, r, spec.skip⟩)] }

/-- `resolve_related_class`: the field gets its class, and the other class its reverse manager. -/
def resolveRelation (L : Loading) (m : Model) (r : RelDecl) (target : Model) : Loading :=
  { L with
    hidden := L.hidden.filter fun h => !(decide (h.1 = m.regKey) && decide (h.2.1 = r.attname))
    accessors := match r.accessor with
      | some n => L.accessors ++ [(target, n, m, r.attname)]
      | none => L.accessors }

/-- `Apps.lazy_model_operation`: waits for the first of the two models that is not registered, or runs. -/
def request (L : Loading) (op : LazyOp) : Except ImportErr Loading :=
  match L.lookup op.keys.1 with
  | none => .ok { L with pending := L.pending ++ [(op.keys.1, op)] }
  | some _ =>
    match L.lookup op.keys.2 with
    | none => .ok { L with pending := L.pending ++ [(op.keys.2, op)] }
    | some other =>
      match op with
      | .relation m r => .ok (L.resolveRelation m r other)
      | .dep this field j spec => L.resolve this field j spec other

def requestAll (L : Loading) : List LazyOp → Except ImportErr Loading
  | [] => .ok L
  | op :: ops =>
    match L.request op with
    | .ok L' => L'.requestAll ops
    | .error e => .error e

/-- `Apps.register_model` with `do_pending_operations`. -/
def register (L : Loading) (m : Model) : Except ImportErr Loading :=
  let mine := (L.pending.filter fun p => p.1 = m.regKey).map (·.2)
  { L with registered := L.registered ++ [m], pending := L.pending.filter fun p => p.1 ≠ m.regKey }.requestAll mine

/-- `RelatedField.contribute_to_class` for each relation field: the target of a field given as a string is the string, until it is resolved. -/
def contributeRels (L : Loading) (m : Model) (rels : List RelDecl) : Except ImportErr Loading :=
  { L with hidden := L.hidden ++ rels.filterMap fun (r : RelDecl) => match r.to with
      | .name s => some (m.regKey, r.attname, s)
      | _ => none }.requestAll (rels.map (.relation m))

/-- `AggregateField.contribute_to_class` (fields.py:144-146). The denorm object is the one of the field object; a copy of the field has the same. -/
def contributeAggs (L : Loading) (m : Model) : List (Col × Nat) → Loading
  | [] => L
  | (n, i) :: l => { L with aggs := L.aggs.modify i fun a => { a with model := some m, fieldname := n } }.contributeAggs m l

/-- `DependOnRelated.setup` (dependencies.py:44-62). -/
def setupDep (L : Loading) (this : Model) (field : Col) (j : Nat) (spec : DepSpec) : Except ImportErr Loading :=
  match spec.other with
  | .self => L.resolve this field j spec this
  | .cls m => L.resolve this field j spec m
  | .name _ => L.request (.dep this field j spec)

/-- `for dependency in self.depend: dependency.setup(self.model)` (denorms.py:156-157); `j` is the number of the next dependency. -/
def setupDeps (L : Loading) (this : Model) (field : Col) : Nat → List DepSpec → Except ImportErr Loading
  | _, [] => .ok L
  | j, s :: l =>
    match L.setupDep this field j s with
    | .ok L' => L'.setupDeps this field (j + 1) l
    | .error e => .error e

/-- The receivers with `sender=cls` (fields.py:50): one for each @denormalized field. -/
def setupCallbacks (L : Loading) (this : Model) : List (Col × Func) → Except ImportErr Loading
  | [] => .ok L
  | (n, f) :: l =>
    match L.setupDeps this n 0 f.depends with
    | .ok L' => L'.setupCallbacks this l
    | .error e => .error e

/-- `hasattr(self.model, manager_name)` and `getattr`. Simplified: of the attributes of a class only the reverse managers of ForeignKeys count, and those of its base classes do
not. -/
def managerOf (L : Loading) (m : Model) (n : String) : Option (Model × String) :=
  (L.accessors.find? fun x => x.1 = m ∧ x.2.1 = n).map fun x => (x.2.2.1, x.2.2.2)

/-- `AggregateDenorm.setup` (denorms.py:312-321). -/
def setupAgg (L : Loading) (a : AggObj) : AggObj :=
  match a.manager, a.model with
  | none, some m => { a with manager := L.managerOf m a.managerName }
  | _, _ => a

/-- The receivers for every sender (fields.py:147): each AggregateDenorm. -/
def setupAggs (L : Loading) : Loading := { L with aggs := L.aggs.map L.setupAgg }

/-- A class statement. -/
def classStmt (L : Loading) (c : ClassSrc) : Except ImportErr Loading :=
  if c.abstract then .ok (L.contributeAggs c.model c.aggregates)
  else if (L.lookup c.model.regKey).isSome then .error .conflict
  else
    match L.contributeRels c.model c.rels with
    | .error e => .error e
    | .ok L1 =>
      match (L1.contributeAggs c.model c.aggregates).setupCallbacks c.model c.callbacks with
      | .error e => .error e
      | .ok L2 => L2.setupAggs.register c.model

end Loading

/-- What a module with models does: it makes CountField and SumField objects (fields.py:135-136), and classes. -/
inductive ModStmt where
  | aggField (managerName : String)
  | cls (c : ClassSrc)

namespace Loading

def exec (L : Loading) : ModStmt → Except ImportErr Loading
  | .aggField n => .ok { L with aggs := L.aggs ++ [{ managerName := n }] }
  | .cls c => L.classStmt c

def run : List ModStmt → Loading → Except ImportErr Loading
  | [], L => .ok L
  | s :: ss, L =>
    match L.exec s with
    | .ok L' => run ss L'
    | .error e => .error e

/-- Dependency number `j` of the @denormalized field `field` of `this`, as get_triggers uses it; `none`: `self.type` is not set, get_triggers raises ValueError
(dependencies.py:278-280). -/
def depOf (L : Loading) (this : Model) (field : Col) (j : Nat) : Option Dep := (L.deps.find? fun e => e.1 = (this, field, j)).map (·.2)

def depsOf (L : Loading) (this : Model) (field : Col) (n : Nat) : List (Option Dep) := (List.range n).map (L.depOf this field)

/-- What `AggregateDenorm.get_triggers` starts with (denorms.py:380-383, 395, 401-402): the model, the field, and the ForeignKey. Without a manager it raises AttributeError, and so does
`denorm_init`, before anything is sent to the database. -/
def aggTriggers (a : AggObj) : Option (Model × Col × Model × String) :=
  match a.model, a.manager with
  | some m, some (related, fk) => some (m, a.fieldname, related, fk)
  | _, _ => none

end Loading
end Denorm
