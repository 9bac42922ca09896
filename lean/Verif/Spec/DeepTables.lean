import Verif.Spec.MultiTable
import Verif.Spec.Calls
import Verif.Code.DeepTables
/-!
# What is meant by a project with multi-table inheritance over any number of levels
-/
namespace Denorm

/-- `above` lists the ancestors of each model, from the root. They have tables of their own; no trigger rewrites ordinary columns of a table in consequence of a save of a level above it (triggers
write CountFields, SumFields and cache keys only). -/
def Ancestors (A : App) (above : OrmModel → List OrmModel) : Prop :=
  ∀ om ∈ A.models, (∀ p ∈ above om, p ∈ A.models) ∧
    (above om ++ [om]).Pairwise fun p c => c.model.table ≠ p.model.table ∧ ∀ col, col ∉ c.denormCols → ¬ Reached A.engine p c.model.table col

/-- Every row has its ancestors' rows: the links are ForeignKeys. -/
def HasAncestors (A : App) (above : OrmModel → List OrmModel) (db : Db) : Prop :=
  ∀ om ∈ A.models, ∀ p ∈ above om, ∀ r ∈ db.rows om.model.table, ∃ pr ∈ db.rows p.model.table, pr p.model.pk = r om.model.pk

/-- The call that saving one level comes to. -/
def levelCall (insert : Bool) (k : Val) (l : InTable) : OrmCall :=
  if l.2 l.1.model.pk = .null then .create l.1 l.2 k else if insert then .create l.1 l.2 (l.2 l.1.model.pk) else .save l.1 l.2

/-- Each level is a call that `P` allows, at the moment it is saved. -/
def LevelsAllowed (A : App) (newer force : Bool) (k : Val) (P : Db → OrmCall → Prop) : Option (Val × Bool) → List InTable → Db → Prop
  | _, [], _ => True
  | above, l :: ls, db => P db (levelCall (insertLevel newer force above ls.isEmpty) k (linkLevel above l)) ∧
    ∀ db1 mem inserted, A.saveLevel (insertLevel newer force above ls.isEmpty) k (linkLevel above l) db = .ok (db1, mem, inserted) →
      LevelsAllowed A newer force k P (some (mem l.1.model.pk, inserted)) ls db1

end Denorm
