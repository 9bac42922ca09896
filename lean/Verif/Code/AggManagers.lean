import Verif.Code.Install
/-!
# CountField and SumField over any manager, in any version of Django

`AggregateDenorm.get_triggers` (denorms.py:384-442) with `get_related_where` and `m2m_triggers` (denorms.py:322-382). `Code/GetTriggers.lean` has the part for
managers of ForeignKeys; here is the rest of it: what the library asks of the manager, and many-to-many relations. Versions of Django from 1.8 on (setup and tox.ini).
-/
namespace Denorm

/-- What `getattr(model, manager_name)` is a descriptor for (denorms.py:319-320). -/
inductive ManagerOf where
  /-- the other end of a ForeignKey `fk` of the model `related` -/
  | reverseFk (related : Model) (fk : Field)
  /-- the other end of a ManyToManyField `f` of the model `declaring` -/
  | reverseM2M (declaring : Model) (f : M2M)
  /-- a ManyToManyField `f` of the model itself -/
  | forwardM2M (f : M2M)
deriving DecidableEq

def ManagerOf.isM2M : ManagerOf → Bool
  | .reverseFk .. => false
  | _ => true

/-- An exception of `get_triggers`. -/
inductive PyErr where
  | attributeError
  | fieldError
deriving DecidableEq

/-- Version 1.9 or newer. A version is (major, minor). -/
def since19 (version : Nat × Nat) : Bool := decide (version.1 > 1 ∨ (version.1 = 1 ∧ version.2 ≥ 9))

/-- The descriptor has an attribute `field`: all since Django 1.9 (ReverseManyToOneDescriptor and its subclass ManyToManyDescriptor); in 1.8 only the one of a ManyToManyField
itself (ReverseManyRelatedObjectsDescriptor). -/
def ManagerOf.hasField (version : Nat × Nat) (m : ManagerOf) : Bool :=
  since19 version || (match m with | .forwardM2M _ => true | _ => false)

/-- The descriptor has an attribute `related`: in Django 1.8 those of the other end of a relation (ForeignRelatedObjectsDescriptor, ManyRelatedObjectsDescriptor). -/
def ManagerOf.hasRelated (version : Nat × Nat) (m : ManagerOf) : Bool :=
  !since19 version && (match m with | .forwardM2M _ => false | _ => true)

/-- An `AggregateDenorm`. -/
structure AnyAgg where
  model : Model
  fieldname : Col
  manager : ManagerOf
  agg : Agg
  filter : List Cond := []
  exclude : List Cond := []
  skip : List String := []
deriving DecidableEq

/-- `related_model` (denorms.py:410-413): the model that declares the field. -/
def AnyAgg.relatedModel (a : AnyAgg) : Model :=
  match a.manager with
  | .reverseFk related _ => related
  | .reverseM2M declaring _ => declaring
  | .forwardM2M _ => a.model

/-- `add_q` finds the fields of all conditions in the model; otherwise it raises FieldError. Simplification as in `Cond`: lookups name columns of the model. -/
def resolves (m : Model) (cs : List Cond) : Bool := cs.all fun c => m.fields.any fun f => decide (f.attname = c.col)

/-- `inc_where` and `dec_where` before the filter is added (denorms.py:396-406). -/
def AnyAgg.key (a : AnyAgg) (s : Side) : Key :=
  match a.manager with
  | .reverseFk _ fk => .eq a.model.pk s fk.attname
  | .reverseM2M _ f => .inSelect a.model.pk f.revName f.through f.colName s a.model.pk
  | .forwardM2M f => .inSelect a.model.pk f.revName f.through f.colName s a.model.pk

/-- `increment` and `decrement` (denorms.py:414-438). -/
def AnyAgg.change (a : AnyAgg) (s : Side) : Action :=
  .update ⟨a.model.table, a.fieldname, match s with | .new => a.agg.incr | .old => a.agg.decr, a.key s,
    match whereOf a.filter a.exclude with
    | none => []
    | some f => [.filter s f]⟩

/-- `get_related_where` (denorms.py:322-341). The rows are counted in the table of `self.manager.related.model`: in Django 1.8 the model that the relation
points to, i.e. `self.model`. -/
def AnyAgg.relatedWhere (version : Nat × Nat) (a : AnyAgg) (f : M2M) (s : Side) : Except PyErr (Key × List Guard) :=
  if !a.manager.hasRelated version then .error .attributeError
  else if !resolves a.model (a.filter ++ a.exclude) then .error .fieldError
  else .ok (.eq a.model.pk s f.revName,
    [.someRow a.model.table (andAll (a.filter.map Cond.toFilter ++ a.exclude.map fun c => .not (andAll c.toNegFilters))) a.model.pk s f.colName])

/-- `get_related_increment_value`, `get_related_decrement_value` (denorms.py:484-507, 533-537): for a SumField the value of the field `fieldname` itself, in the
table of `self.manager.related.model`. (The manager has an attribute `related` when they are called.) -/
def AnyAgg.relatedValue (a : AnyAgg) (f : M2M) (s : Side) : SetExpr :=
  match a.agg, s with
  | .count, .new => .plus .one
  | .count, .old => .minus .one
  | .sum _, .new => .plus (.scalar a.fieldname a.model.table a.model.pk .new f.colName)
  | .sum _, .old => .minus (.scalar a.fieldname a.model.table a.model.pk .old f.colName)

/-- `m2m_triggers` (denorms.py:343-382). -/
def AnyAgg.m2mTriggers (version : Nat × Nat) (a : AnyAgg) (f : M2M) : Except PyErr (List PyTrigger) :=
  match a.relatedWhere version f .new with
  | .error e => .error e
  | .ok (kn, gn) =>
    match a.relatedWhere version f .old with
    | .error e => .error e
    | .ok (ko, go) =>
      let inc := Action.update ⟨a.model.table, a.fieldname, a.relatedValue f .new, kn, gn⟩
      let dec := Action.update ⟨a.model.table, a.fieldname, a.relatedValue f .old, ko, go⟩
      .ok [ mkTrigger (.m2m f) .update [inc, dec] a.model.ct a.skip,
            mkTrigger (.m2m f) .insert [inc] a.model.ct a.skip,
            mkTrigger (.m2m f) .delete [dec] a.model.ct a.skip ]

/-- `AggregateDenorm.get_triggers` (denorms.py:384-442). -/
def AnyAgg.triggers (version : Nat × Nat) (a : AnyAgg) : Except PyErr (List PyTrigger) :=
  if !a.manager.hasField version && !a.manager.hasRelated version then .error .attributeError
  else if !resolves a.relatedModel (a.filter ++ a.exclude) then .error .fieldError
  else
    let own := [ mkTrigger (.model a.relatedModel) .update [a.change .new, a.change .old] a.model.ct a.skip,
      mkTrigger (.model a.relatedModel) .insert [a.change .new] a.model.ct a.skip,
      mkTrigger (.model a.relatedModel) .delete [a.change .old] a.model.ct a.skip ]
    match a.manager with
    | .reverseFk .. => .ok own
    | .reverseM2M _ f => (a.m2mTriggers version f).map (own ++ ·)
    | .forwardM2M f => (a.m2mTriggers version f).map (own ++ ·)

/-- An entry of `get_alldenorms()`: one of those of `Denorm`, or an aggregate over any manager. -/
inductive AnyDenorm where
  | one (d : Denorm)
  | agg (a : AnyAgg)

def AnyDenorm.triggers (version : Nat × Nat) : AnyDenorm → Except PyErr (List PyTrigger)
  | .one d => .ok d.triggers
  | .agg a => a.triggers version

/-- The loop of `build_triggerset` (denorms.py:588-589). -/
def appendAll (version : Nat × Nat) (b : Backend) : TriggerSet → List AnyDenorm → Except PyErr TriggerSet
  | ts, [] => .ok ts
  | ts, d :: ds =>
    match d.triggers version with
    | .error e => .error e
    | .ok trs => appendAll version b (ts.append b trs) ds

/-- `install_triggers(using)` (denorms.py:575-590): what the database has afterwards, and whether it went well. -/
def installAny (version : Nat × Nat) (b : Backend) (hash : String → String) (draws : Nat → String) (fails : Nat → Bool) (using_ : String) (ds : List AnyDenorm)
    (s : Server) : Server × Bool :=
  match appendAll version b [] ds with
  | .error _ => (s, false)
  | .ok ts => transact b fails using_ (installStmts b hash draws 0 ts) s

end Denorm
