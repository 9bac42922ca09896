import Verif.Code.Held
import Verif.Spec.BulkUnsafe
import Verif.Spec.SumCalls
import Verif.Spec.Works
/-!
# What a program may do with instances that hold related objects
-/
namespace Denorm

/-- The call without what its instance holds. -/
def HeldCall.bare : HeldCall → OrmCall
  | .save _ om mem => .save om mem
  | .saveFields _ om cols mem => .saveFields om cols mem
  | .create _ om mem k => .create om mem k
  | .call c => c

/-- No two fields of the model share a column, and the primary key is not among the fields that save() writes. -/
def HeldCall.Proper : HeldCall → Prop
  | .save _ om _ => om.Proper
  | .saveFields _ om _ _ => om.Proper
  | .create _ om _ _ => om.Proper
  | .call _ => True

/-- Primary keys and many-to-many constraints are respected (`LegalCall`), whatever the instances hold. -/
def LegalHeld (A : App) (cb : Callback) : List HeldCall → Db → Prop
  | [], _ => True
  | c :: cs, db => LegalCall A cb db c.bare ∧
    match A.heldCall db c with
    | .ok db' => LegalHeld A cb cs db'
    | .error _ => LegalHeld A cb cs db

/-- The same for a CountField (`CountCall`). -/
def CountHeld (A : App) (a : AggDenorm) : List HeldCall → Db → Prop
  | [], _ => True
  | c :: cs, db => CountCall A a db c.bare ∧
    match A.heldCall db c with
    | .ok db' => CountHeld A a cs db'
    | .error _ => CountHeld A a cs db

/-- The same for a SumField (`SumCall`): `S` are the columns that hold numbers. -/
def SumHeld (A : App) (a : AggDenorm) (S : List (TableName × Col)) : List HeldCall → Db → Prop
  | [], _ => True
  | c :: cs, db => SumCall A a S db c.bare ∧
    match A.heldCall db c with
    | .ok db' => SumHeld A a S cs db'
    | .error _ => SumHeld A a S cs db

/-- A program whose instances hold related objects (as `LegalProgram`). -/
structure LegalHeldProgram (A : App) (D : List Denorm) (cbs : List Callback) (S : List (TableName × Col)) (cs : List HeldCall) (db : Db) : Prop where
  proper : ∀ c ∈ cs, c.Proper
  legal : ∀ cb ∈ cbs, LegalHeld A cb cs db
  counts : ∀ a, .aggregate a ∈ D → a.agg = .count → CountHeld A a cs db
  sums : ∀ a, .aggregate a ∈ D → ∀ f, a.agg = .sum f → SumHeld A a S cs db
  unique : KeysUnique A (A.heldCalls cs db)

end Denorm
