import Verif.Spec.Flush
import Verif.Code.MultiTable
/-!
# What is meant by a project with multi-table children
-/
namespace Denorm

/-- `parent` maps the models that are multi-table children to their parents. No trigger rewrites ordinary columns of a child in consequence of a save of its parent (triggers write
CountFields, SumFields and cache keys only; see C33). -/
def Children (A : App) (parent : OrmModel → Option OrmModel) : Prop :=
  ∀ om ∈ A.models, ∀ p, parent om = some p → p ∈ A.models ∧ om.model.table ≠ p.model.table ∧ ∀ c, c ∉ om.denormCols → ¬ Reached A.engine p om.model.table c

/-- Every row of a child has its parent's row: the link is a ForeignKey. -/
def HasParents (A : App) (parent : OrmModel → Option OrmModel) (db : Db) : Prop :=
  ∀ om ∈ A.models, ∀ p, parent om = some p → ∀ r ∈ db.rows om.model.table, ∃ pr ∈ db.rows p.model.table, pr p.model.pk = r om.model.pk

end Denorm
