import Verif.Spec.FlushRun
import Verif.Spec.Views
import Verif.Spec.Collector
import Verif.Spec.Upsert
/-!
# Histories with crashes
-/
namespace Denorm

/-- What deletions through the ORM rely on (see `Collector.Fits`, and C93):
* `order` leaves out no model,
* primary keys are what the models say they are, and neither they nor foreign keys are maintained by triggers,
* `SET_NULL` clears no primary key, no aggregate, and nothing that is summed,
* links of many-to-many relations go before what they link to, and Django looks after them. -/
structure Collector.Suits (P : Collector) (A : App) (D : List Denorm) (cbs : List Callback) (S : List (TableName × Col)) : Prop where
  order : ∀ l, ∀ t ∈ l, t ∈ P.order l
  models : ∀ om ∈ A.models, P.pk om.model.table = om.model.pk
  pks : ∀ cb ∈ cbs, ∀ p ∈ cb.pks, P.pk p.1 = p.2
  keys : ∀ t, ¬ Managed A.engine t (P.pk t)
  cols : ∀ f ∈ P.refs, ¬ Managed A.engine f.table f.col ∧ ∀ p, f.ct = some p → ¬ Managed A.engine f.table p.1
  through : ∀ cb ∈ cbs, ∀ d ∈ cb.deps, ∀ tbl c k, d.dep.m2mTable = some (tbl, c, k) → ¬ Managed A.engine tbl c
  nulls : ∀ f ∈ P.refs, f.on = .setNull → f.col ≠ P.pk f.table
  sorted : ∀ cb ∈ cbs, P.Sorted cb
  links : ∀ cb ∈ cbs, P.GuardsLinks cb
  spares : ∀ a, .aggregate a ∈ D → P.Spares a
  ints : ∀ f ∈ P.refs, f.on = .setNull → (f.table, f.col) ∉ S

/-- The foreign keys of the database leave alone what the fields rely on (see C91): they clear no primary key, no aggregate and nothing that is summed, and delete no rows of the other model
of a many-to-many relation. -/
structure RefsSuit (A : App) (D : List Denorm) (cbs : List Callback) (S : List (TableName × Col)) (fs : List ForeignRef) : Prop where
  keys : ∀ om ∈ A.models, ∀ f ∈ fs, f.action = .setNull → f.table = om.model.table → f.col ≠ om.model.pk
  fields : ∀ cb ∈ cbs, RefsOk cb fs
  aggs : ∀ a, .aggregate a ∈ D → AggRefsOk a S fs

/-- An upsert, `REPLACE` or plain statement keeps what the fields rely on (see C90): keys, and for aggregates what is asked of INSERTs and UPDATEs; `REPLACE` is not used on sqlite, where C90 is
violated. -/
structure WriteSuits (A : App) (D : List Denorm) (cbs : List Callback) (S : List (TableName × Col)) (w : DbWrite) (db : Db) : Prop where
  fields : ∀ cb ∈ cbs, LegalWrite A.engine cb db w
  counts : ∀ a, .aggregate a ∈ D → a.agg = .count → w.Parts (CountLegal a db) db
  sums : ∀ a, .aggregate a ∈ D → ∀ f, a.agg = .sum f → w.Parts (AggLegal a S db) db
  simple : ∀ a, .aggregate a ∈ D → w.Simple A.engine a
  loud : ∀ t us rs, w = .replace t us rs → A.engine.backend ≠ .sqlite

/-- Programs change the database, with and without `atomic()` blocks; now and then somebody calls flush(), with limits of its own, and each time the process may die at any moment
(`Visits`), or an exception that the project's own code raises may end it (`flushWith`); rebuildall(), which may die before its flush() as well, adds markers; and objects are deleted
with delete(), and with them what refers to them; or by SQL, and the foreign keys of the database delete or clear what refers to them (not on MySQL, where C91 is violated); and other programs
execute upserts. -/
inductive CrashHistory (A : App) (D : List Denorm) (cbs : List Callback) (S : List (TableName × Col)) (db : Db) : Db → Prop where
  | start : CrashHistory A D cbs S db db
  | program {d cs} : CrashHistory A D cbs S db d → LegalProgram A D cbs S cs d → CrashHistory A D cbs S db (A.calls cs d)
  | script {d d' s} : CrashHistory A D cbs S db d → LegalScript A D cbs S s d → (A.script s d = .done d' ∨ A.script s d = .raised d') → CrashHistory A D cbs S db d'
  | marks {d ms} : CrashHistory A D cbs S db d → (∀ m ∈ ms, ∃ om ∈ A.models, om.model.ct = m.ct) → CrashHistory A D cbs S db (d.addMarks ms)
  | delete {d d' P n t keys} : CrashHistory A D cbs S db d → Collector.Suits P A D cbs S → A.engine.deleteObjects P n t keys d = .ok d' → CrashHistory A D cbs S db d'
  | cascade {d d' fs n t w} : CrashHistory A D cbs S db d → A.engine.backend ≠ .mysql → RefsSuit A D cbs S fs →
      (∀ cb ∈ cbs, ∀ dp ∈ cb.deps, dp.dep.other.table = t → dp.dep.m2mTable = none) →
      A.engine.execRefs fs n (.delete t w) d = .ok d' → CrashHistory A D cbs S db d'
  | write {d d' w n} : CrashHistory A D cbs S db d → WriteSuits A D cbs S w d → A.engine.write n d w = .ok d' → KeysUnique A d' → CrashHistory A D cbs S db d'
  | crash {d x n} : CrashHistory A D cbs S db d → (A.limit n).Visits d x → CrashHistory A D cbs S db x
  | mishap {d H n k} : CrashHistory A D cbs S db d → Hooks.Truthy H cbs → CrashHistory A D cbs S db ((A.limit n).flushWith H k d).1

end Denorm
