import Verif.Spec.Works
/-!
# Projects with every kind of field

Everything in `RankedProject` is about models and declarations: no databases, no flush(). Unlike in `LayeredProject` the models are arranged in layers, not the fields, and there may be
CacheKeyFields.
-/
namespace Denorm

/-- The tables whose rows matter for the field: those of its dependencies, or the one it counts or sums. -/
def Denorm.uses : Denorm → List TableName
  | .callback _ _ _ _ deps => deps.map Dep.otherTable
  | .cacheKey _ _ deps => deps.map Dep.otherTable
  | .aggregate a => [a.related.table]

/-- The models and declarations of a project with `@denormalized` fields `cbs`, CountFields, SumFields and CacheKeyFields, where each field uses models of lower ranks. There are `L` ranks;
`rank` is given by content type. `S` are the columns with numbers that SumFields need.

Models:
* `cts`, `tables`: each has its own content type and table,
* `proper`: columns are distinct, and the primary key is not one of the columns that save() sets,
* `computed`: what is computed when an instance is saved is declared with django-denorm,
* `keys`: primary keys are not denormalized.

Declarations:
* `fields`: each `@denormalized` field is declared on a model of the project, and saved with it, after the fields of the same instance it reads (C45),
* `kinds`: there are no other declarations than `@denormalized` fields, aggregates and CacheKeyFields of models of the project,
* `counts`: each aggregate is declared on a model of the project (see `AggDeclared`),
* `once`: no two of them are for the same column,
* `agree`: triggers that share a name watch the same columns (C08, C34),
* `this`, `watched`, `ownCols`, `pkTable`: see `WellDeclared`: no inherited or skipped columns are read,
* `others`, `through`: a dependency's table belongs to one model, an intermediate table to none,
* `generic`: no GenericRelations backwards, nor any on MySQL (C39).

Data:
* `looks`, `ownKeys`, `pks`, `fks`: ForeignKeys, links, the keys that aggregates count by and primary keys are not denormalized,
* `sums`, `numbers`: SumFields and the columns they sum are in `S`, and what callbacks compute for columns in `S` are numbers,
* `ranks`, `bound`: fields use models of lower ranks,
* `own`, `reads`: what a `@denormalized` field reads, in its own instance or related ones, is a plain column or another `@denormalized` field (not an aggregate:
  `C01_violated_through_aggregate`, nor a cache key).

Triggers:
* `acyclic`, `clear`: no table's aggregates and cache keys are fed by the table itself, directly or through others (C51), nor do tables' names collide. -/
structure RankedProject (b : Backend) (models : List OrmModel) (D : List Denorm) (cbs : List Callback) (S : List (TableName × Col)) (rank : Nat → Nat) (L : Nat) : Prop where
  cts : ∀ om ∈ models, ∀ om' ∈ models, om.model.ct = om'.model.ct → om = om'
  tables : ∀ om ∈ models, ∀ om' ∈ models, om.model.table = om'.model.table → om = om'
  proper : ∀ om ∈ models, om.Proper
  computed : ∀ om ∈ models, ∀ f ∈ om.saved, f.kind.computed = true → Denormalized D om.model.table f.col
  keys : ∀ om ∈ models, ¬ Denormalized D om.model.table om.model.pk
  fields : ∀ cb ∈ cbs, cb.denorm ∈ D ∧ ∃ om ∈ models, om.model = cb.model ∧
    ∃ pre post, om.saved = pre ++ ⟨cb.field, .callback cb⟩ :: post ∧ ∀ f ∈ post, f.kind.computed = true → f.col ∉ cb.own
  kinds : ∀ dn ∈ D, (∃ cb ∈ cbs, dn = cb.denorm) ∨ (∃ a, dn = .aggregate a) ∨
    ∃ m f ds, dn = .cacheKey m f ds ∧ m.pkTable = m.table ∧ ∃ om ∈ models, om.model = m
  counts : ∀ a, .aggregate a ∈ D → AggDeclared b D a ∧ (∃ om ∈ models, om.model = a.model) ∧ a.model.pkTable = a.model.table ∧ ∀ om ∈ models, om.Holds a
  once : ∀ dn ∈ D, ∀ dn' ∈ D, dn.model.table = dn'.model.table → dn.fieldname = dn'.fieldname → dn = dn'
  agree : AgreeOnWatch b D
  this : ∀ dn ∈ D, ∀ d ∈ dn.deps, d.this = dn.model
  watched : ∀ cb ∈ cbs, ∀ d ∈ cb.deps, d.Watched
  ownCols : ∀ cb ∈ cbs, ∀ c ∈ cb.ownCols, Watchable cb.model cb.skip c
  pkTable : ∀ cb ∈ cbs, cb.model.pkTable = cb.model.table
  others : ∀ dn ∈ D, ∀ d ∈ dn.deps, ∀ om ∈ models, om.model.table = d.other.table → om.model.pk = d.other.pk
  through : ∀ dn ∈ D, ∀ d ∈ dn.deps, ∀ l ∈ d.m2mTable, ∀ om ∈ models, om.model.table ≠ l.1
  generic : ∀ dn ∈ D, ∀ d ∈ dn.deps, ∀ g, d.rel ≠ .backwardM2M (.generic g) ∧ (d.rel = .forwardM2M (.generic g) → b ≠ .mysql)
  looks : ∀ dn ∈ D, ∀ d ∈ dn.deps, ∀ p ∈ d.looks, ¬ Denormalized D p.1 p.2
  ownKeys : ∀ dn ∈ D, ∀ d ∈ dn.deps, ∀ c ∈ d.ownKeys, ¬ Denormalized D dn.model.table c
  sums : ∀ a, .aggregate a ∈ D → ∀ f, a.agg = .sum f → (a.model.table, a.fieldname) ∈ S ∧ (a.related.table, f) ∈ S
  numbers : ∀ om ∈ models, om.Numbers S
  ranks : ∀ dn ∈ D, ∀ om ∈ models, om.model.table ∈ dn.uses → rank om.model.ct < rank dn.model.ct
  bound : ∀ om ∈ models, rank om.model.ct < L
  own : ∀ cb ∈ cbs, ∀ c ∈ cb.own, ¬ Denormalized D cb.model.table c ∨ ∃ cb' ∈ cbs, cb'.model.table = cb.model.table ∧ cb'.field = c ∧ c ≠ cb.field
  reads : ∀ cb ∈ cbs, ∀ d ∈ cb.deps, ∀ c ∈ d.reads, ¬ Denormalized D d.dep.otherTable c ∨ ∃ cb' ∈ cbs, cb'.model.table = d.dep.otherTable ∧ cb'.field = c
  pks : ∀ cb ∈ cbs, ∀ p ∈ cb.pks, ¬ Denormalized D p.1 p.2
  fks : ∀ a, .aggregate a ∈ D → ¬ Denormalized D a.related.table a.fk.attname
  acyclic : TablesAcyclic D
  clear : TableNamesClear D

end Denorm
