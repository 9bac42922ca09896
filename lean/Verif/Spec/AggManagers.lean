import Verif.Code.AggManagers
/-!
# Aggregates over a many-to-many relation
-/
namespace Denorm

/-- Every instance's CountField (without filter) over the other end of a ManyToManyField `f` of `declaring` holds the number of rows of `declaring` that are
linked to it. -/
def LinkCountIsRight (a : AnyAgg) (declaring : Model) (f : M2M) (db : Db) : Prop :=
  ∀ r ∈ db.rows a.model.table,
    r a.fieldname = .int ((db.rows declaring.table).countP fun o =>
      (db.rows f.through).any fun l => Val.sqlEq (l f.colName) (o declaring.pk) && Val.sqlEq (l f.revName) (r a.model.pk))

instance (a : AnyAgg) (declaring : Model) (f : M2M) (db : Db) : Decidable (LinkCountIsRight a declaring f db) := by
  unfold LinkCountIsRight; infer_instance

/-- Every instance's SumField (without filter) over the other end of a ManyToManyField `f` of `declaring` holds the sum of the column `c` of the rows of
`declaring` that are linked to it. -/
def LinkSumIsRight (a : AnyAgg) (declaring : Model) (f : M2M) (c : Col) (db : Db) : Prop :=
  ∀ r ∈ db.rows a.model.table,
    r a.fieldname = .int ((((db.rows declaring.table).filter fun o =>
      (db.rows f.through).any fun l => Val.sqlEq (l f.colName) (o declaring.pk) && Val.sqlEq (l f.revName) (r a.model.pk)).map fun o => match o c with | .int i => i | _ => 0).sum)

instance (a : AnyAgg) (declaring : Model) (f : M2M) (c : Col) (db : Db) : Decidable (LinkSumIsRight a declaring f c db) := by
  unfold LinkSumIsRight; infer_instance

/-- The aggregate over a ForeignKey, as in `Code/GetTriggers.lean`. -/
def AnyAgg.ofFk (a : AggDenorm) : AnyAgg := ⟨a.model, a.fieldname, .reverseFk a.related a.fk, a.agg, a.filter, a.exclude, a.skip⟩

/-- A declaration as an entry of `get_alldenorms()` in some version of Django. -/
def AnyDenorm.of : Denorm → AnyDenorm
  | .aggregate a => .agg (.ofFk a)
  | d => .one d

end Denorm
