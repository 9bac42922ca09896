import Verif.Spec.SumCalls
import Verif.Spec.FieldOrder
import Verif.Spec.Finishes
import Verif.Spec.Returns
import Verif.Spec.Untouched
/-!
# Projects whose fields form layers

Everything in `LayeredProject` is about models and declarations: no databases, no flush(). Given the layers, all of it but `acyclic` can be checked
by looking at one declaration (or two of them) at a time.
-/
namespace Denorm

/-- The models and declarations of a project with `@denormalized` fields `cbs`, CountFields and SumFields, where each field reads plain columns and
fields of lower layers. `layer` says in which of the `L` layers a column lies. (If all fields are computed from plain data, there is one layer.) `S` are the columns with numbers that SumFields need.

Models:
* `cts`, `tables`: each has its own content type and table,
* `proper`: columns are distinct, and the primary key is not one of the columns that save() sets,
* `computed`: nothing else is computed when an instance is saved (no CacheKeyFields),
* `keys`: primary keys are not denormalized.

Declarations:
* `fields`: each `@denormalized` field is declared on a model of the project, and saved with it, after the fields of the same instance it reads (C45),
* `kinds`: there are no other declarations than `@denormalized` fields and aggregates,
* `counts`: each aggregate is declared on a model of the project (see `AggDeclared`),
* `once`: no two of them are for the same column,
* `agree`: triggers that share a name watch the same columns (C08, C34),
* `this`, `watched`, `ownCols`, `pkTable`: see `WellDeclared`: no inherited or skipped columns are read,
* `others`, `through`: a dependency's table belongs to one model, an intermediate table to none,
* `generic`: no GenericRelations backwards, nor any on MySQL (C39).

Data:
* `looks`, `ownKeys`, `pks`, `fks`: ForeignKeys, links, the keys that aggregates count by and primary keys are not denormalized,
* `sums`, `numbers`: SumFields and the columns they sum are in `S`, and what callbacks compute for columns in `S` are numbers,
* `layers`: there are `L` layers,
* `own`, `reads`: what a field reads, in its own instance or related ones, is a plain column, or a `@denormalized` field of a lower layer (not an aggregate:
  `C01_violated_through_aggregate`); from other instances of the same model, a plain column.

Triggers:
* `steady`: no trigger of a table with denormalized fields acts although no column has changed (C06),
* `acyclic`, `clear`: no table's aggregates count rows of the table itself, directly or through others (C51), nor do tables' names collide. -/
structure LayeredProject (b : Backend) (models : List OrmModel) (D : List Denorm) (cbs : List Callback) (S : List (TableName × Col)) (layer : TableName → Col → Nat) (L : Nat) :
    Prop where
  cts : ∀ om ∈ models, ∀ om' ∈ models, om.model.ct = om'.model.ct → om = om'
  tables : ∀ om ∈ models, ∀ om' ∈ models, om.model.table = om'.model.table → om = om'
  proper : ∀ om ∈ models, om.Proper
  computed : ∀ om ∈ models, ∀ f ∈ om.saved, f.kind.computed = true → ∃ cb ∈ cbs, cb.model = om.model ∧ cb.field = f.col
  keys : ∀ om ∈ models, ¬ Denormalized D om.model.table om.model.pk
  fields : ∀ cb ∈ cbs, cb.denorm ∈ D ∧ ∃ om ∈ models, om.model = cb.model ∧
    ∃ pre post, om.saved = pre ++ ⟨cb.field, .callback cb⟩ :: post ∧ ∀ f ∈ post, f.kind.computed = true → f.col ∉ cb.own
  kinds : ∀ dn ∈ D, (∃ cb ∈ cbs, dn = cb.denorm) ∨ ∃ a, dn = .aggregate a
  counts : ∀ a, .aggregate a ∈ D → AggDeclared b D a ∧ (∃ om ∈ models, om.model = a.model) ∧ a.model.pkTable = a.model.table ∧ ∀ om ∈ models, om.Holds a
  once : ∀ dn ∈ D, ∀ dn' ∈ D, dn.model.table = dn'.model.table → dn.fieldname = dn'.fieldname → dn = dn'
  agree : AgreeOnWatch b D
  this : ∀ cb ∈ cbs, ∀ d ∈ cb.deps, d.dep.this = cb.model
  watched : ∀ cb ∈ cbs, ∀ d ∈ cb.deps, d.Watched
  ownCols : ∀ cb ∈ cbs, ∀ c ∈ cb.ownCols, Watchable cb.model cb.skip c
  pkTable : ∀ cb ∈ cbs, cb.model.pkTable = cb.model.table
  others : ∀ cb ∈ cbs, ∀ d ∈ cb.deps, ∀ om ∈ models, om.model.table = d.dep.other.table → om.model.pk = d.dep.other.pk
  through : ∀ cb ∈ cbs, ∀ d ∈ cb.deps, ∀ l ∈ d.dep.m2mTable, ∀ om ∈ models, om.model.table ≠ l.1
  generic : ∀ cb ∈ cbs, ∀ d ∈ cb.deps, ∀ g, d.dep.rel ≠ .backwardM2M (.generic g) ∧ (d.dep.rel = .forwardM2M (.generic g) → b ≠ .mysql)
  looks : ∀ cb ∈ cbs, ∀ d ∈ cb.deps, ∀ p ∈ d.dep.looks, ¬ Denormalized D p.1 p.2
  ownKeys : ∀ cb ∈ cbs, ∀ d ∈ cb.deps, ∀ c ∈ d.dep.ownKeys, ¬ Denormalized D cb.model.table c
  sums : ∀ a, .aggregate a ∈ D → ∀ f, a.agg = .sum f → (a.model.table, a.fieldname) ∈ S ∧ (a.related.table, f) ∈ S
  numbers : ∀ om ∈ models, om.Numbers S
  layers : ∀ cb ∈ cbs, layer cb.model.table cb.field < L
  own : ∀ cb ∈ cbs, ∀ c ∈ cb.own, ¬ Denormalized D cb.model.table c ∨
    (∃ cb' ∈ cbs, cb'.model.table = cb.model.table ∧ cb'.field = c) ∧ layer cb.model.table c < layer cb.model.table cb.field
  reads : ∀ cb ∈ cbs, ∀ d ∈ cb.deps, ∀ c ∈ d.reads, ¬ Denormalized D d.dep.otherTable c ∨
    d.dep.otherTable ≠ cb.model.table ∧ (∃ cb' ∈ cbs, cb'.model.table = d.dep.otherTable ∧ cb'.field = c) ∧
      layer d.dep.otherTable c < layer cb.model.table cb.field
  pks : ∀ cb ∈ cbs, ∀ p ∈ cb.pks, ¬ Denormalized D p.1 p.2
  fks : ∀ a, .aggregate a ∈ D → ¬ Denormalized D a.related.table a.fk.attname
  steady : ∀ dn ∈ D, ∀ tr ∈ installedTriggers b D, tr.table = dn.model.table → tr.event = .update → ¬ tr.Unconditional
  acyclic : TablesAcyclic D
  clear : TableNamesClear D

/-- The database is in order: keys are unique, markers belong to models, every `@denormalized` field is right or its instance marked, every CountField is
right, every SumField too, and there are numbers where numbers are summed. -/
structure InOrder (A : App) (D : List Denorm) (cbs : List Callback) (S : List (TableName × Col)) (db : Db) : Prop where
  unique : KeysUnique A db
  known : MarksKnown A db
  keys : ∀ cb ∈ cbs, KeysOk cb db
  marked : ∀ cb ∈ cbs, ∀ r ∈ db.rows cb.model.table, r cb.field = cb.value db r ∨ Marked cb.model db r
  counts : ∀ a, .aggregate a ∈ D → a.agg = .count → AggOk a db
  sums : ∀ a, .aggregate a ∈ D → ∀ f, a.agg = .sum f → AggOk a db ∧ ∀ t, ∀ r ∈ db.rows t, IntRow S t r

/-- A program that respects keys and many-to-many constraints (`LegalCalls`, `CountCalls`), writes numbers where numbers are summed (`SumCalls`), and after which primary keys are unique (the database sees to that). -/
structure LegalProgram (A : App) (D : List Denorm) (cbs : List Callback) (S : List (TableName × Col)) (cs : List OrmCall) (db : Db) : Prop where
  legal : ∀ cb ∈ cbs, LegalCalls A cb cs db
  counts : ∀ a, .aggregate a ∈ D → a.agg = .count → CountCalls A a cs db
  sums : ∀ a, .aggregate a ∈ D → ∀ f, a.agg = .sum f → SumCalls A a S cs db
  unique : KeysUnique A (A.calls cs db)

/-- Everything is right: no markers, and every `@denormalized` field, every CountField and every SumField of every instance has the value it should have. -/
structure AllRight (D : List Denorm) (cbs : List Callback) (db : Db) : Prop where
  clean : db.dirty = []
  fields : ∀ cb ∈ cbs, ∀ r ∈ db.rows cb.model.table, r cb.field = cb.value db r
  aggregates : ∀ a, .aggregate a ∈ D → ∀ r ∈ db.rows a.model.table, r a.fieldname = .int (a.total db (r a.model.pk))

/-- Programs change the database, and now and then somebody calls flush(), each time with its own limits on trigger recursion (`n`) and passes (`k`). -/
inductive History (A : App) (D : List Denorm) (cbs : List Callback) (S : List (TableName × Col)) (db : Db) : Db → Prop where
  | start : History A D cbs S db db
  | program {d cs} : History A D cbs S db d → LegalProgram A D cbs S cs d → History A D cbs S db (A.calls cs d)
  | flush {d d'} (n k : Nat) : History A D cbs S db d → (A.limit n).flush k d = .ok (some d') → History A D cbs S db d'

end Denorm
