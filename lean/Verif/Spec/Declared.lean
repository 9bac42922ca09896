import Verif.Spec.Legal
import Verif.Spec.Agree
/-!
# Declarations that django-denorm can track

Each condition excludes a way in which the code is known to lose changes; the violations are theorems of their own (see DESIGN.md,
section 4).
-/
namespace Denorm

/-- The (table, column) pairs that the triggers of a declaration write. -/
def Denorm.writes : Denorm → List (TableName × Col)
  | .callback .. => []
  | .cacheKey _ f deps => deps.map fun d => (d.this.table, f)
  | .aggregate a => [(a.model.table, a.fieldname)]

/-- Column `c` of model `m` is one django-denorm can watch when given this `skip`: a local column that neither `skip` nor
`denorm_always_skip` lists. -/
def Watchable (m : Model) (skip : List String) (c : Col) : Prop :=
  (∃ f ∈ m.fields, f.isLocal = true ∧ f.attname = c) ∧ c ∉ skip ∧ c ∉ m.alwaysSkip

instance (m : Model) (skip : List String) (c : Col) : Decidable (Watchable m skip c) := by unfold Watchable; infer_instance

/-- The columns a dependency needs to see changes of can be watched. -/
def DepRead.Watched (d : DepRead) : Prop :=
  match d.dep.rel with
  | .forward _ => ∀ c ∈ d.reads, Watchable d.dep.other d.dep.skip c
  | .backward f => Watchable d.dep.other d.dep.skip f.column ∧ ∀ c ∈ d.reads, Watchable d.dep.other d.dep.skip c
  | .forwardM2M (.m2m m) => m.through ≠ d.dep.other.table ∧ ∀ c ∈ d.reads, Watchable d.dep.other d.dep.skip c
  | .backwardM2M (.m2m m) => m.through ≠ d.dep.other.table ∧ ∀ c ∈ d.reads, Watchable d.dep.other d.dep.skip c
  | .forwardM2M (.generic g) =>
    (g.ctFieldName ++ "_id") ∈ g.remoteFields ∧ g.objectIdField ∈ g.remoteFields ∧ ∀ c ∈ d.reads, c ∈ g.remoteFields
  | .backwardM2M (.generic _) => False

instance (d : DepRead) : Decidable d.Watched := by
  unfold DepRead.Watched; split <;> infer_instance

/-- Columns of its own row a dependency needs, other than the primary key: the ForeignKey it follows. -/
def Dep.ownKeys (d : Dep) : List Col :=
  match d.rel with
  | .forward f => [f.column]
  | _ => []

/-- Columns of its own row a callback needs, other than the primary key. -/
def Callback.ownCols (cb : Callback) : List Col := cb.field :: cb.own ++ cb.deps.flatMap fun d => d.dep.ownKeys

/-- The callback field is one of the declarations `D`, and
* for each trigger of the declaration, the first declaration that uses the same trigger name watches at least the same columns
  (otherwise C08 is violated),
* the model's primary key is stored in its own table (dependencies.py uses `pk.model._meta.db_table`; so for every model but a proxy),
* what the callback reads is not in a skip list and, for its own row, is a local column,
* triggers write no primary key and no many-to-many link column. -/
structure WellDeclared (b : Backend) (D : List Denorm) (cb : Callback) : Prop where
  declared : cb.denorm ∈ D
  agree : ∀ g ∈ cb.denorm.triggers, Covered b D g
  table : cb.model.pkTable = cb.model.table
  own : ∀ c ∈ cb.ownCols, Watchable cb.model cb.skip c
  this : ∀ d ∈ cb.deps, d.dep.this = cb.model
  watched : ∀ d ∈ cb.deps, d.Watched
  keys : ∀ p ∈ cb.pks, ∀ dn ∈ D, p ∉ dn.writes
  links : ∀ d ∈ cb.deps, ∀ l ∈ d.dep.m2mTable, ∀ dn ∈ D, (l.1, l.2.2) ∉ dn.writes

/-- The triggers of the declarations `D` are installed. -/
def Installed (E : Engine) (D : List Denorm) : Prop := E.triggers = installedTriggers E.backend D

end Denorm
