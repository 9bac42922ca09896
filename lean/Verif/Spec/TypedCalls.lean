import Verif.Code.TypedCalls
import Verif.Spec.Typed
/-!
# Columns that change what they store: what a program may do
-/
namespace Denorm

/-- The call, with the values as the columns store them. -/
def OrmCall.stored (τ : ColumnTypes) : OrmCall → OrmCall
  | .save om mem => .save om (τ.row om.model.table mem)
  | .saveFields om cols mem => .saveFields om cols (τ.row om.model.table mem)
  | .create om mem k => .create om (τ.row om.model.table mem) k
  | .bulkCreate om objs => .bulkCreate om (objs.map fun o => (τ.row om.model.table o.1, o.2))
  | .load om mem => .load om (τ.row om.model.table mem)
  | .stmt s => .stmt (s.typed τ)

/-- A model whose primary key and aggregates are stored as they are. -/
structure OrmModel.Fits (τ : ColumnTypes) (om : OrmModel) : Prop where
  proper : om.Proper
  pk : ∀ v, τ om.model.table om.model.pk v = v
  aggregates : ∀ f ∈ om.saved, f.kind = .aggregate → ∀ v, τ om.model.table f.col v = v

def OrmCall.Fits (τ : ColumnTypes) : OrmCall → Prop
  | .save om _ => om.Fits τ
  | .saveFields om _ _ => om.Fits τ
  | .create om _ _ => om.Fits τ
  | .bulkCreate om _ => om.Fits τ
  | .load om _ => om.Fits τ
  | .stmt _ => True

/-- Every call, with the values as they are stored, respects keys and writes numbers where numbers are summed, at the moment it is made. -/
def LegalTypedCalls (τ : ColumnTypes) (A : App) (D : List Denorm) (cbs : List Callback) (S : List (TableName × Col)) : List OrmCall → Db → Prop
  | [], _ => True
  | c :: cs, db => c.Fits τ ∧ (∀ cb ∈ cbs, LegalCall A cb db (c.stored τ)) ∧ (∀ a, .aggregate a ∈ D → a.agg = .count → CountCall A a db (c.stored τ)) ∧
      (∀ a, .aggregate a ∈ D → ∀ f, a.agg = .sum f → SumCall A a S db (c.stored τ)) ∧
    match A.callTyped τ db c with
    | .ok db' => LegalTypedCalls τ A D cbs S cs db'
    | .error _ => LegalTypedCalls τ A D cbs S cs db

/-- A program on columns that change what they store (as `LegalProgram`). -/
structure LegalTypedProgram (τ : ColumnTypes) (A : App) (D : List Denorm) (cbs : List Callback) (S : List (TableName × Col)) (cs : List OrmCall) (db : Db) : Prop where
  legal : LegalTypedCalls τ A D cbs S cs db
  unique : KeysUnique A (A.callsTyped τ cs db)

end Denorm
