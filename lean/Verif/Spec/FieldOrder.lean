import Verif.Spec.Confluent
/-!
# Dependencies between fields of instances

`Acyclic` looks at whole instances: a forum that collects the titles of its posts and a post that copies the title of its forum depend on
each other. Here the fields are told apart.
-/
namespace Denorm

/-- A field of an instance: table, column, primary key. -/
abbrev FieldAt := TableName × Col × Val

/-- The field `q` is computed from the field `p`, directly or through others; all of them are among the callback fields `cbs`. -/
inductive ComputedFrom (cbs : List Callback) (db : Db) : FieldAt → FieldAt → Prop where
  /-- a field of the same instance -/
  | own {cb cb' x} : cb ∈ cbs → cb' ∈ cbs → cb'.model.table = cb.model.table → cb'.field ∈ cb.own → x ∈ db.rows cb.model.table →
      ComputedFrom cbs db (cb'.model.table, cb'.field, x cb'.model.pk) (cb.model.table, cb.field, x cb.model.pk)
  /-- a field of a related instance -/
  | related {cb cb' d x o} : cb ∈ cbs → cb' ∈ cbs → d ∈ cb.deps → cb'.model.table = d.dep.otherTable → cb'.field ∈ d.reads →
      x ∈ db.rows cb.model.table → o ∈ relatedRows d.dep db x →
      ComputedFrom cbs db (cb'.model.table, cb'.field, o cb'.model.pk) (cb.model.table, cb.field, x cb.model.pk)
  | trans {p q r} : ComputedFrom cbs db p q → ComputedFrom cbs db q r → ComputedFrom cbs db p r

/-- No field is computed from itself, directly or through others. -/
def FieldsAcyclic (cbs : List Callback) (db : Db) : Prop := ∀ p, ¬ ComputedFrom cbs db p p

/-- All fields of all instances. -/
def allFields (cbs : List Callback) (db : Db) : List FieldAt :=
  cbs.flatMap fun cb => (db.rows cb.model.table).map fun r => (cb.model.table, cb.field, r cb.model.pk)

/-- Fields of instances are arranged in `L` layers: a field lies above everything it is computed from. -/
structure FieldsLayered (cbs : List Callback) (rank : FieldAt → Nat) (L : Nat) (db : Db) : Prop where
  own : ∀ cb ∈ cbs, ∀ cb' ∈ cbs, cb'.model.table = cb.model.table → cb'.field ∈ cb.own → ∀ x ∈ db.rows cb.model.table,
    rank (cb'.model.table, cb'.field, x cb'.model.pk) < rank (cb.model.table, cb.field, x cb.model.pk)
  related : ∀ cb ∈ cbs, ∀ cb' ∈ cbs, ∀ d ∈ cb.deps, cb'.model.table = d.dep.otherTable → cb'.field ∈ d.reads →
    ∀ x ∈ db.rows cb.model.table, ∀ o ∈ relatedRows d.dep db x,
      rank (cb'.model.table, cb'.field, o cb'.model.pk) < rank (cb.model.table, cb.field, x cb.model.pk)
  bound : ∀ cb ∈ cbs, ∀ x ∈ db.rows cb.model.table, rank (cb.model.table, cb.field, x cb.model.pk) < L

/-- What save() computes are the fields `cbs` and nothing else.
* `computed`: no CacheKeyFields, which get another value each time,
* `unreached`: no trigger writes one of them,
* `steady`: no trigger on a table with denormalized fields acts when no column has changed (C06). -/
structure OnlyFields (A : App) (D : List Denorm) (cbs : List Callback) : Prop where
  computed : ∀ om ∈ A.models, ∀ f ∈ om.saved, f.kind.computed = true → ∃ cb ∈ cbs, cb.model = om.model ∧ cb.field = f.col
  unreached : ∀ cb ∈ cbs, ∀ om ∈ A.models, ¬ Reached A.engine om cb.model.table cb.field
  steady : ∀ dn ∈ D, ∀ tr ∈ A.engine.triggers, tr.table = dn.model.table → tr.event = .update → ¬ tr.Unconditional

end Denorm
