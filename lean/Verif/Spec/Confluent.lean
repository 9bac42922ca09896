import Verif.Spec.Acyclic
/-!
# The result of flush() as a function of the data
-/
namespace Denorm

/-- The callback fields `cbs` of the project are such that flushing brings each of them up to date, starting from `db`, and none of them
reads a column that flushing may change unless that column is itself one of `cbs`.
* `each`: every field is handled well (`Flushable`), and its out-of-date instances are marked,
* `own`, `reads`: what is read is settled or computed by one of `cbs`. -/
structure FlushedTogether (A : App) (D : List Denorm) (cbs : List Callback) (db : Db) : Prop where
  each : ∀ cb ∈ cbs, ∃ om, Flushable A D om cb db ∧ KeysOk cb db ∧ StaleMarked cb db
  own : ∀ cb ∈ cbs, ∀ c ∈ cb.own, Touched A cb.model.table c → ∃ cb' ∈ cbs, cb'.model.table = cb.model.table ∧ cb'.field = c
  reads : ∀ cb ∈ cbs, ∀ d ∈ cb.deps, ∀ c ∈ d.reads, Touched A d.dep.otherTable c →
    ∃ cb' ∈ cbs, cb'.model.table = d.dep.otherTable ∧ cb'.field = c

/-- The values of a callback field, with the primary keys of the instances. -/
def Callback.column (cb : Callback) (db : Db) : List (Val × Val) := (db.rows cb.model.table).map fun r => (r cb.model.pk, r cb.field)

end Denorm
