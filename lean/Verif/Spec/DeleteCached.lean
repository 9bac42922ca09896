import Verif.Spec.Collector
import Verif.Spec.Cached
/-!
# Deleting objects while values are cached
-/
namespace Denorm

/-- SET_NULL clears nothing that the function reads of the instance itself, no ForeignKey that a dependency follows, and not the key. -/
def Collector.SparesCached (P : Collector) (cb : Callback) : Prop :=
  ∀ f ∈ P.refs, f.on = .setNull → f.table = cb.model.table → f.col ≠ cb.field ∧ f.col ∉ cb.own ∧ f.col ∉ cb.key.fks

instance (P : Collector) (cb : Callback) : Decidable (P.SparesCached cb) := by unfold Collector.SparesCached; infer_instance

/-- A history in which, besides all that can happen otherwise, objects are deleted through the ORM. -/
inductive DeleteRun (A : App) (cb : Callback) (om : OrmModel) (P : Collector) : CacheState → CacheState → Prop where
  | refl {st} : DeleteRun A cb om P st st
  | step {st st1 st2} : DeleteRun A cb om P st st1 → CacheStep A cb om st1 st2 → DeleteRun A cb om P st st2
  | delete {st st1 t keys db'} : DeleteRun A cb om P st st1 → A.engine.deleteObjects P A.fuel t keys st1.db = .ok db' →
      DeleteRun A cb om P st { st1 with db := db' }

end Denorm
