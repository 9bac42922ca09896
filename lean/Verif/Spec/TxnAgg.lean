import Verif.Spec.Transactions
import Verif.Spec.Aggregate
import Verif.Spec.Save
/-!
# Aggregates among transactions
-/
namespace Denorm

/-- The foreign key constraint of the relation that is counted: whatever refers to an instance refers to one that exists. -/
def Refers (a : AggDenorm) (db : Db) : Prop :=
  ∀ o ∈ db.rows a.related.table, o a.fk.column ≠ .null → ∃ r ∈ db.rows a.model.table, r a.model.pk = o a.fk.column

instance (a : AggDenorm) (db : Db) : Decidable (Refers a db) := by unfold Refers; infer_instance

instance (a : AggDenorm) (db : Db) : Decidable (AggOk a db) := by unfold AggOk; infer_instance

/-- The columns in `Z` hold integers. -/
def Ints (Z : List (TableName × Col)) (db : Db) : Prop := ∀ t, ∀ r ∈ db.rows t, IntRow Z t r

/-- The UPDATE of a save(), with the aggregates that the session sees in the row at this moment (and integers in the columns `Z`). -/
def WritesBack (A : App) (Z : List (TableName × Col)) (db : Db) (s : Stmt) : Prop :=
  ∃ om ∈ A.models, ∃ mem, s = saveUpdate om mem ∧ mem om.model.pk ≠ .null ∧ IntRow Z om.model.table mem ∧
    ∃ r ∈ db.rows om.model.table, r om.model.pk = mem om.model.pk ∧ ∀ f ∈ om.saved, f.kind.isAggregate = true → mem f.col = r f.col

/-- What the sessions may do, at every moment of the schedule: execute statements that are `legal`, respect primary keys and leave the foreign key constraint intact, as far
as the session itself can see. The constraint holds after each save() of flush(), too. -/
def AggOrderly (A : App) (S : Schema) (a : AggDenorm) (legal : Db → Stmt → Prop) : List Move → DbServer → Prop
  | [], _ => True
  | μ :: μs, X =>
    (match μ with
      | .stmt i s => legal (X.sight S i).1 s ∧ KeepsKeys S (X.sight S i).1 s ∧ ∀ v, A.exec s (X.sight S i).1 = .ok v → Refers a v
      | .flushOne m => ∀ db', A.flushOne m X.db = .ok db' → Refers a db'
      | _ => True) ∧
    AggOrderly A S a legal μs (A.move S X μ)

end Denorm
