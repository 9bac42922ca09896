import Verif.Code.M2M
/-!
# Which classes the signal handlers of denormalized ManyToManyFields are connected to (fields.py:51-53)

`Code/M2M` models what the handlers do. This file models for instances of which classes Django runs them. Simplified: every class has at
most one base class among the models.
-/
namespace Denorm

/-- A Python class of a model: the denormalized ManyToManyFields of its body, and whether its body has other @denormalized fields. -/
inductive PyClass where
  | base (name : String) (abstract : Bool) (own : List M2MField) (others : Bool)
  | child (name : String) (abstract : Bool) (own : List M2MField) (others : Bool) (parent : PyClass)
  | proxy (name : String) (parent : PyClass)

def PyClass.name : PyClass → String
  | .base n .. => n
  | .child n .. => n
  | .proxy n _ => n

def PyClass.abstract : PyClass → Bool
  | .base _ a .. => a
  | .child _ a .. => a
  | .proxy .. => false

/-- Django's `_meta.local_many_to_many`: the fields on which `contribute_to_class(cls, …)` is called. The fields of an abstract base are
copied into its subclasses, the fields of any other base are not. -/
def PyClass.local : PyClass → List M2MField
  | .base _ _ own _ => own
  | .child _ _ own _ p => (if p.abstract then p.local else []) ++ own
  | .proxy .. => []

/-- Does the class have other @denormalized fields on which `contribute_to_class(cls, …)` is called? -/
def PyClass.localOthers : PyClass → Bool
  | .base _ _ _ o => o
  | .child _ _ _ o p => (p.abstract && p.localOthers) || o
  | .proxy .. => false

/-- The senders the handlers are connected with: `pre_save.connect(many_to_many_pre_save, sender=cls)` in the `contribute_to_class` of every
@denormalized field (fields.py:52-53). -/
def receivers (classes : List PyClass) : List String :=
  (classes.filter fun c => !c.local.isEmpty || c.localOthers).map PyClass.name

/-- `instance.save()` for an instance of the class `c`. Django sends the signals with the class of the instance as sender, also for proxy
models (`sender=origin`), and calls the handlers connected with this very class. The handlers look at `sender._meta.local_many_to_many`
(denorms.py:24, 58). Simplified: the save of an instance of a multi-table child writes one row, of `om`. -/
def App.saveAs (A : App) (classes : List PyClass) (om : OrmModel) (c : PyClass) (n : Nat) (mem : Row) (db : Db) :
    Except OrmErr (Option (Db × Row)) :=
  if c.name ∈ receivers classes then A.saveModel om c.local n mem db
  else
    match A.save om mem db with
    | .error e => .error e
    | .ok (db', mem') => .ok (some (db', mem'))

end Denorm
