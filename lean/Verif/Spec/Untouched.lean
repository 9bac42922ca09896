import Verif.Spec.Flush
import Verif.Spec.Transparent
/-!
# What flush() may write
-/
namespace Denorm

/-- Column `c` of table `t` belongs to a field that was declared with django-denorm. -/
def Denormalized (D : List Denorm) (t : TableName) (c : Col) : Prop := ∃ dn ∈ D, dn.model.table = t ∧ dn.fieldname = c

/-- The fields whose value is computed when an instance is saved are declared with django-denorm (so no `auto_now=True`), and a primary key is
not a denormalized field. -/
structure OnlyDenorms (A : App) (D : List Denorm) : Prop where
  computed : ∀ om ∈ A.models, ∀ f ∈ om.saved, f.kind.computed = true → Denormalized D om.model.table f.col
  saved : ∀ om ∈ A.models, ∀ f ∈ om.saved, f.col ≠ om.model.pk
  keys : ∀ om ∈ A.models, ¬ Denormalized D om.model.table om.model.pk

/-- Every `@denormalized` field of every instance holds what its callback returns, and there are no CacheKeyFields. -/
def AllFresh (A : App) (db : Db) : Prop :=
  ∀ om ∈ A.models, ∀ f ∈ om.saved, match f.kind with
    | .callback cb => ∀ r ∈ db.rows om.model.table, r f.col = cb.value db r
    | .cacheKey => False
    | _ => True

end Denorm
