import Verif.Spec.Affected
/-!
# CacheKeyField: which keys have to be renewed
-/
namespace Denorm

/-- A CacheKeyField and, for each of its dependencies, the columns of the related rows whose changes matter. -/
structure KeyField where
  model : Model
  field : Col
  deps : List DepRead

/-- The field as an entry of `get_alldenorms()`. -/
def KeyField.denorm (k : KeyField) : Denorm := .cacheKey k.model k.field (k.deps.map (·.dep))

/-- The models and relations involved, in the form used for callback fields. -/
def KeyField.relations (k : KeyField) : Callback where
  model := k.model
  field := k.field
  own := []
  deps := k.deps
  fn := fun _ _ => .null

/-- The ForeignKey columns of the model that its dependencies follow. -/
def KeyField.fks (k : KeyField) : List Col := k.deps.flatMap fun d => d.dep.ownKeys

/-- The CacheKeyField is one of the declarations `D`, and
* for each trigger of the declaration, the first declaration that uses the same trigger name watches at least the same columns,
* what should be looked at is not in a skip list,
* triggers write no primary key, no ForeignKey and no many-to-many link column that a dependency follows, and no other declaration
  uses the same column. -/
structure KeyDeclared (b : Backend) (D : List Denorm) (k : KeyField) : Prop where
  declared : k.denorm ∈ D
  agree : ∀ g ∈ k.denorm.triggers, Covered b D g
  this : ∀ d ∈ k.deps, d.dep.this = k.model
  watched : ∀ d ∈ k.deps, d.Watched
  keys : ∀ p ∈ k.relations.pks, ∀ dn ∈ D, p ∉ dn.writes
  fks : ∀ c ∈ k.fks, ∀ dn ∈ D, (k.model.table, c) ∉ dn.writes
  links : ∀ d ∈ k.deps, ∀ l ∈ d.dep.m2mTable, ∀ dn ∈ D, (l.1, l.2.1) ∉ dn.writes ∧ (l.1, l.2.2) ∉ dn.writes
  only : ∀ dn ∈ D, (k.model.table, k.field) ∈ dn.writes → dn = k.denorm

/-- What is required of a statement besides `LegalStmt`:
* inserted rows of the model have new primary keys,
* an UPDATE of several rows of the model leaves the key column and the ForeignKeys alone (a save() updates a single row). -/
def KeyLegal (k : KeyField) (db : Db) : Stmt → Prop
  | .insert t rs => t = k.model.table →
      (∀ r ∈ rs, ∀ r0 ∈ db.rows t, r0 k.model.pk ≠ r k.model.pk) ∧ rs.Pairwise fun r r' => r k.model.pk ≠ r' k.model.pk
  | .update t w σ => t = k.model.table →
      ((db.rows t).filter w).length ≤ 1 ∨ ∀ x r, σ x r k.field = r k.field ∧ ∀ c ∈ k.fks, σ x r c = r c
  | .delete _ _ => True

/-- The instance with primary key `v` is there right after change `ch`, and the change concerns it through a dependency. -/
def KeyField.Concerned (k : KeyField) (ch : Change) (db : Db) (v : Val) : Prop :=
  (∃ r ∈ db.rows k.model.table, r k.model.pk = v) ∧
  ∀ r ∈ db.rows k.model.table, r k.model.pk = v → ∃ d ∈ k.deps, d.Concerns db ch r

/-- Row `o` of the other model is related to row `r`; for a generic relation: its object id is the key of `r`, whatever type of
object it refers to. -/
def Dep.mayRelate (d : Dep) (db : Db) (r o : Row) : Prop :=
  match d.rel with
  | .forwardM2M (.generic g) => Val.sqlEq (o g.objectIdField) (r d.this.pk) = true
  | _ => d.relatedTo db r o

/-- The change is one of a row that is related to the instance with primary key `v`, before or after it, or of a row that links it. -/
def KeyField.Touches (k : KeyField) (ch : Change) (db : Db) (v : Val) : Prop :=
  ∃ r ∈ db.rows k.model.table, r k.model.pk = v ∧ ∃ d ∈ k.deps,
    (ch.table = d.dep.otherTable ∧ ∃ o ∈ ch.versions, d.dep.mayRelate db r o) ∨
    ∃ x ∈ d.dep.m2mTable, ch.table = x.1 ∧ ∃ l ∈ ch.versions, Val.sqlEq (l x.2.1) (r d.dep.this.pk) = true

instance (d : Dep) (db : Db) (r o : Row) : Decidable (d.mayRelate db r o) := by unfold Dep.mayRelate; split <;> infer_instance

instance (k : KeyField) (ch : Change) (db : Db) (v : Val) : Decidable (k.Touches ch db v) := by
  unfold KeyField.Touches; infer_instance

/-- The statement does not itself create the instance with primary key `v` or write its key or its ForeignKeys. -/
def KeyField.Spares (k : KeyField) (v : Val) (db : Db) : Stmt → Prop
  | .insert t rs => t = k.model.table → ∀ r ∈ rs, r k.model.pk ≠ v
  | .update t w σ => t = k.model.table → (∀ r ∈ db.rows t, w r = true → r k.model.pk ≠ v) ∨
      ∀ x r, σ x r k.field = r k.field ∧ ∀ c ∈ k.fks, σ x r c = r c
  | .delete _ _ => True

end Denorm
