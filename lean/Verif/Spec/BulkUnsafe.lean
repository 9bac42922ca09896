import Verif.Spec.Calls
import Verif.Spec.Declared
/-!
# Working with DENORM_BULK_UNSAFE_TRIGGERS

With the setting on, a declaration has no triggers on its own table. The program then has to write the declaring model with save() and create(), which call the callback.
-/
namespace Denorm

/-- The callback field is declared with the setting on. As `WellDeclared`, except that
* nothing is required to be watched on the declaring table,
* instead, no trigger may write what the callback reads of its own row. -/
structure DeclaredUnsafe (b : Backend) (D : List Denorm) (cb : Callback) : Prop where
  declared : cb.denorm true ∈ D
  agree : ∀ g ∈ (cb.denorm true).triggers, Covered b D g
  table : cb.model.pkTable = cb.model.table
  this : ∀ d ∈ cb.deps, d.dep.this = cb.model
  watched : ∀ d ∈ cb.deps, d.Watched
  keys : ∀ p ∈ cb.pks, ∀ dn ∈ D, p ∉ dn.writes
  links : ∀ d ∈ cb.deps, ∀ l ∈ d.dep.m2mTable, ∀ dn ∈ D, (l.1, l.2.2) ∉ dn.writes
  own : ∀ c ∈ cb.ownCols, ∀ dn ∈ D, (cb.model.table, c) ∉ dn.writes

/-- The statement does not insert instances of the declaring model, nor overwrite the denormalized field or anything of its own row the callback reads. -/
def SparesOwn (cb : Callback) : Stmt → Prop
  | .insert t _ => t ≠ cb.model.table
  | .update t _ σ => t = cb.model.table → ∀ c ∈ cb.ownCols, ∀ x r, σ x r c = r c
  | .delete _ _ => True

/-- The model `om` computes `cb` when it is saved: one of its fields has this callback, and what it reads of its own row are fields of the model and not computed by
a later field. -/
structure Computes (om : OrmModel) (cb : Callback) : Prop where
  model : om.model = cb.model
  pk : om.model.pk ∉ om.cols
  saved : ∀ c ∈ cb.ownCols, c ∈ om.cols ∨ c = om.model.pk
  cols : om.cols.Nodup
  order : ∃ pre post, om.saved = pre ++ ⟨cb.field, .callback cb⟩ :: post ∧
    ∀ c ∈ cb.own ++ cb.deps.flatMap (fun d => d.dep.ownKeys), c ≠ cb.field ∧ ∀ f ∈ post, f.col = c → f.kind = .plain

/-- The call writes the declaring model's own columns one instance at a time, by save() or create(). A new instance gets a key nothing refers to yet. -/
def OneByOne (cb : Callback) (db : Db) : OrmCall → Prop
  | .save om _ => om.model.table = cb.model.table → Computes om cb ∧ om.Unique db
  | .saveFields om cols _ => om.model.table = cb.model.table → ∀ c ∈ cb.ownCols, c ∉ cols
  | .create om mem k => om.model.table = cb.model.table → Computes om cb ∧ mem om.model.pk = .null ∧ cb.model.pk ∉ cb.ownCols ∧
      ∀ d ∈ cb.deps, d.dep.ownKeys = [] → ∀ r : Row, r cb.model.pk = k → relatedRows d.dep db r = []
  | .bulkCreate om _ => om.model.table ≠ cb.model.table
  | .load om _ => om.model.table ≠ cb.model.table
  | .stmt s => SparesOwn cb s

/-- All calls of the program are of this kind. -/
def AllOneByOne (A : App) (cb : Callback) : List OrmCall → Db → Prop
  | [], _ => True
  | c :: cs, db => OneByOne cb db c ∧
    match A.call db c with
    | .ok db' => AllOneByOne A cb cs db'
    | .error _ => AllOneByOne A cb cs db

end Denorm
