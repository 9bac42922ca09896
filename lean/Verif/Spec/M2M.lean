import Verif.Code.M2M
/-!
# What a denormalized ManyToManyField should hold
-/
namespace Denorm

/-- The relation links the instance with key `k` with the object with key `v`. -/
def Linked (rel : M2M) (db : Db) (k v : Val) : Prop := ∃ l ∈ db.rows rel.through, l rel.colName = k ∧ l rel.revName = v

/-- The links of all instances but `k`. -/
def otherLinks (rel : M2M) (db : Db) (k : Val) : List Row := (db.rows rel.through).filter fun l => decide (l rel.colName ≠ k)

/-- The two columns of the link table are different, it is not the model's own table, and no trigger writes it. -/
structure M2MField.Proper (E : Engine) (om : OrmModel) (f : M2MField) : Prop where
  cols : f.rel.colName ≠ f.rel.revName
  table : f.rel.through ≠ om.model.table
  free : ∀ tr ∈ E.triggers, ∀ u, Action.update u ∈ tr.actions → u.table ≠ f.rel.through

/-- The denormalized ManyToManyFields of a model: each is proper, and no two share a link table. -/
structure ProperM2M (E : Engine) (om : OrmModel) (fs : List M2MField) : Prop where
  each : ∀ f ∈ fs, f.Proper E om
  distinct : (fs.map fun f => f.rel.through).Nodup

/-- No trigger writes primary keys. -/
def KeyFree (E : Engine) (om : OrmModel) : Prop :=
  ∀ tr ∈ E.triggers, ∀ u, Action.update u ∈ tr.actions → (u.table, u.col) ≠ (om.model.table, om.model.pk)

end Denorm
