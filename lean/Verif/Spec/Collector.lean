import Verif.Code.Collector
import Verif.Spec.Rekey
/-!
# Deleting objects through the ORM
-/
namespace Denorm

/-- Row `r` refers to the object with key `k`. -/
def ModelRef.Refers (f : ModelRef) (k : Val) (r : Row) : Prop := r f.col = k ∧ k ≠ .null ∧ ∀ p, f.ct = some p → r p.1 = .int p.2

/-- The objects that go with those with these keys, as the documentation of `on_delete` says: what refers to an object that goes by a ForeignKey with
CASCADE goes as well, and so does the parent of a child. -/
inductive Collector.Doomed (P : Collector) (db : Db) (t : TableName) (keys : List Val) : TableName → Val → Prop
  | given {k : Val} : k ∈ keys → Doomed P db t keys t k
  | cascade {f : ModelRef} {k : Val} {r : Row} : f ∈ P.refs → f.on = .cascade → Doomed P db t keys f.target k → r ∈ db.rows f.table → f.Refers k r →
      Doomed P db t keys f.table (r (P.pk f.table))
  | parent {p : TableName × TableName} {k : Val} : p ∈ P.parents → Doomed P db t keys p.1 k → Doomed P db t keys p.2 k

/-- Reference `f` is the one of column `c` of table `t` to `target`, and Django looks after it. -/
def ModelRef.Guards (f : ModelRef) (t : TableName) (c : Col) (target : TableName) : Prop :=
  f.table = t ∧ f.col = c ∧ f.target = target ∧ f.ct = none ∧ f.on ≠ .doNothing

instance (f : ModelRef) (t : TableName) (c : Col) (target : TableName) : Decidable (f.Guards t c target) := by
  unfold ModelRef.Guards; infer_instance

/-- The foreign key that the relation of a dependency consists of is declared with an `on_delete` other than DO_NOTHING. -/
def Dep.Guarded (d : Dep) (P : Collector) : Prop :=
  match d.rel with
  | .forward f => ∃ g ∈ P.refs, g.Guards d.this.table f.column d.other.table
  | .forwardM2M (.m2m m) => ∃ g ∈ P.refs, g.Guards m.through m.revName d.other.table
  | .backwardM2M (.m2m m) => ∃ g ∈ P.refs, g.Guards m.through m.colName d.other.table
  | _ => True

instance (d : Dep) (P : Collector) : Decidable (d.Guarded P) := by unfold Dep.Guarded; split <;> infer_instance

/-- What deletions rely on:
* `order` leaves out no model,
* primary keys are what the models say they are, and neither they nor foreign keys are maintained by triggers,
* `SET_NULL` clears no primary key. -/
structure Collector.Fits (P : Collector) (E : Engine) (cb : Callback) : Prop where
  order : ∀ l, ∀ t ∈ l, t ∈ P.order l
  pks : ∀ p ∈ cb.pks, P.pk p.1 = p.2
  keys : ∀ t, ¬ Managed E t (P.pk t)
  cols : ∀ f ∈ P.refs, ¬ Managed E f.table f.col ∧ ∀ p, f.ct = some p → ¬ Managed E f.table p.1
  links : ∀ d ∈ cb.deps, ∀ tbl c k, d.dep.m2mTable = some (tbl, c, k) → ¬ Managed E tbl c
  nulls : ∀ f ∈ P.refs, f.on = .setNull → f.col ≠ P.pk f.table

/-- All relations of the dependencies are such. -/
def Collector.Guards (P : Collector) (cb : Callback) : Prop := ∀ d ∈ cb.deps, d.dep.Guarded P

instance (P : Collector) (cb : Callback) : Decidable (P.Guards cb) := by unfold Collector.Guards; infer_instance

/-- Only the many-to-many relations are: other ForeignKeys may be declared with DO_NOTHING. -/
def Collector.GuardsLinks (P : Collector) (cb : Callback) : Prop :=
  ∀ d ∈ cb.deps, d.dep.m2mTable ≠ none → d.dep.Guarded P

instance (P : Collector) (cb : Callback) : Decidable (P.GuardsLinks cb) := by unfold Collector.GuardsLinks; infer_instance

/-- Links of many-to-many relations are deleted before what they link to (`Collector.sort`). -/
def Collector.Sorted (P : Collector) (cb : Callback) : Prop :=
  ∀ d ∈ cb.deps, ∀ tbl c k, d.dep.m2mTable = some (tbl, c, k) → ∀ l pre post, tbl ∈ l → P.order l = pre ++ d.dep.other.table :: post → tbl ∈ pre

/-- For aggregates: `SET_NULL` clears neither the key nor the aggregate of a counted instance. -/
def Collector.Spares (P : Collector) (a : AggDenorm) : Prop :=
  ∀ f ∈ P.refs, f.on = .setNull → f.table = a.model.table → f.col ≠ a.model.pk ∧ f.col ≠ a.fieldname

end Denorm
