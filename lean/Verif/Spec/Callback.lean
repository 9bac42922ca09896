import Verif.Code.GetTriggers
/-!
# What a `@denormalized` field should contain

Written without reference to triggers.
-/
namespace Denorm

/-- The rows related to row `r` of `d.this` through the relation of dependency `d`: what following the ForeignKey, the reverse
manager, the ManyToManyField or the GenericRelation gives. -/
def relatedRows (d : Dep) (db : Db) (r : Row) : List Row :=
  match d.rel with
  | .forward f => (db.rows d.other.table).filter fun o => Val.sqlEq (o d.other.pk) (r f.column)
  | .backward f => (db.rows d.other.table).filter fun o => Val.sqlEq (o f.column) (r d.this.pk)
  | .forwardM2M (.m2m m) =>
    ((db.rows m.through).filter fun l => Val.sqlEq (l m.colName) (r d.this.pk)).flatMap fun l =>
      (db.rows d.other.table).filter fun o => Val.sqlEq (o d.other.pk) (l m.revName)
  | .backwardM2M (.m2m m) =>
    ((db.rows m.through).filter fun l => Val.sqlEq (l m.revName) (r d.this.pk)).flatMap fun l =>
      (db.rows d.other.table).filter fun o => Val.sqlEq (o d.other.pk) (l m.colName)
  | .forwardM2M (.generic g) =>
    (db.rows g.remoteTable).filter fun o =>
      Val.sqlEq (o (g.ctFieldName ++ "_id")) (.int d.this.ct) && Val.sqlEq (o g.objectIdField) (r d.this.pk)
  | .backwardM2M (.generic g) =>
    (db.rows d.other.table).filter fun o =>
      Val.sqlEq (r (g.ctFieldName ++ "_id")) (.int d.other.ct) && Val.sqlEq (o d.other.pk) (r g.objectIdField)

/-- A list of rows, as seen through some columns. -/
def seen (cols : List Col) (rows : List Row) : List (List Val) := rows.map fun o => cols.map o

/-- A declared dependency together with the columns of the related rows the callback reads. -/
structure DepRead where
  dep : Dep
  reads : List Col

/-- A `@denormalized` field: its declaration and its callback. The callback is any function of the columns `own` of its own
row and the columns `reads` of the related rows of each declared dependency. -/
structure Callback where
  model : Model
  field : Col
  skip : List String := []
  own : List Col
  deps : List DepRead
  fn : List Val → List (List (List Val)) → Val

/-- What the callback returns for row `r` on database `db`. -/
def Callback.value (cb : Callback) (db : Db) (r : Row) : Val :=
  cb.fn (cb.own.map r) (cb.deps.map fun d => seen d.reads (relatedRows d.dep db r))

/-- The stored value is what the callback returns. -/
def Callback.Fresh (cb : Callback) (db : Db) (r : Row) : Prop := r cb.field = cb.value db r

instance (cb : Callback) (db : Db) (r : Row) : Decidable (cb.Fresh db r) := inferInstanceAs (Decidable (_ = _))

/-- Row `r` of model `m` has a dirty marker. -/
def Marked (m : Model) (db : Db) (r : Row) : Prop := ⟨m.ct, r m.pk⟩ ∈ db.dirty

instance (m : Model) (db : Db) (r : Row) : Decidable (Marked m db r) := inferInstanceAs (Decidable (_ ∈ _))

/-- Every out-of-date instance has a dirty marker. -/
def StaleMarked (cb : Callback) (db : Db) : Prop :=
  ∀ r ∈ db.rows cb.model.table, ¬ cb.Fresh db r → Marked cb.model db r

/-- The field as an entry of `get_alldenorms()`. -/
def Callback.denorm (cb : Callback) (bulkUnsafe : Bool := false) : Denorm :=
  .callback bulkUnsafe cb.model cb.field cb.skip (cb.deps.map (·.dep))

end Denorm
