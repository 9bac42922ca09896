import Verif.Code.Unique
import Verif.Spec.Crew
/-!
# Fields with `unique=True`
-/
namespace Denorm

/-- What two different instances hold, and what they have to hold, is different. -/
def Callback.Distinct (cb : Callback) (db : Db) : Prop :=
  ∀ a ∈ db.rows cb.model.table, ∀ b ∈ db.rows cb.model.table, a cb.model.pk ≠ b cb.model.pk →
    ∀ x ∈ [a cb.field, cb.value db a], x ≠ .null → x ∉ [b cb.field, cb.value db b]

instance (cb : Callback) (db : Db) : Decidable (cb.Distinct db) := by unfold Callback.Distinct; infer_instance

/-- A unique column that flush() does not have to be afraid of: plain data without duplicates, or a field computed from plain data whose old and new
values are all different. -/
def SafelyUnique (A : App) (D : List Denorm) (db : Db) (p : TableName × Col) : Prop :=
  (Still A D p.1 p.2 ∧ db.repeats p.1 p.2 = false) ∨
  ∃ om cb, p = (cb.model.table, cb.field) ∧ Unchained A D om cb ∧ cb.Distinct db

/-- Another instance than `r` holds the value that `r` has to get. -/
def Callback.Taken (cb : Callback) (db : Db) (r : Row) : Prop :=
  cb.value db r ≠ .null ∧ ∃ s ∈ db.rows cb.model.table, s cb.model.pk ≠ r cb.model.pk ∧ s cb.field = cb.value db r

end Denorm
