import Verif.Spec.FlushRun
/-!
# Dependencies between instances
-/
namespace Denorm

def Denorm.deps : Denorm → List Dep
  | .callback _ _ _ _ deps => deps
  | .cacheKey _ _ deps => deps
  | .aggregate _ => []

/-- The declaration `dn` makes the instance `x` (a row of `dn.model`) depend on the row `o` of table `t`: `o` is related to `x` through
a declared dependency, or is counted or summed in `x`. -/
def Denorm.feeds (dn : Denorm) (db : Db) (t : TableName) (o x : Row) : Prop :=
  (∃ d ∈ dn.deps, t = d.otherTable ∧ d.relatedTo db x o) ∨
  ∃ a, dn = .aggregate a ∧ t = a.related.table ∧ Val.sqlEq (o a.fk.attname) (x a.model.pk) = true

/-- Instances are arranged in `L` layers, given by content type and primary key: an instance lies above everything it depends on. -/
structure Layered (A : App) (D : List Denorm) (rank : Nat → Val → Nat) (L : Nat) (db : Db) : Prop where
  up : ∀ dn ∈ D, ∀ om ∈ A.models, ∀ o ∈ db.rows om.model.table, ∀ x ∈ db.rows dn.model.table, dn.feeds db om.model.table o x →
    rank om.model.ct (o om.model.pk) < rank dn.model.ct (x dn.model.pk)
  bound : ∀ om ∈ A.models, ∀ o ∈ db.rows om.model.table, rank om.model.ct (o om.model.pk) < L

/-- The instance `q` (content type, primary key) depends on the instance `p`, directly or through others. -/
inductive DependsOn (A : App) (D : List Denorm) (db : Db) : Nat × Val → Nat × Val → Prop where
  | direct {dn om o x} : dn ∈ D → om ∈ A.models → o ∈ db.rows om.model.table → x ∈ db.rows dn.model.table →
      dn.feeds db om.model.table o x → DependsOn A D db (om.model.ct, o om.model.pk) (dn.model.ct, x dn.model.pk)
  | trans {p q r} : DependsOn A D db p q → DependsOn A D db q r → DependsOn A D db p r

/-- No instance depends on itself, directly or through others. -/
def Acyclic (A : App) (D : List Denorm) (db : Db) : Prop := ∀ p, ¬ DependsOn A D db p p

/-- All instances of the project. -/
def App.instances (A : App) (db : Db) : List (Nat × Val) :=
  A.models.flatMap fun om => (db.rows om.model.table).map fun o => (om.model.ct, o om.model.pk)

/-- The project is put together in the ordinary way.
* `agree`: triggers of the same name agree (C08, C34),
* `cts`, `tables`: every model has its own content type and table,
* `this`, `known`: declarations are on models of the project,
* `generic`: no backward GenericRelation, and none at all on MySQL (C39),
* `through`: intermediate tables of many-to-many relations are not models with saved instances,
* `fixed`: saving does not change who is related to whom (ForeignKeys and links are not denormalized). -/
structure Project (A : App) (D : List Denorm) : Prop where
  installed : Installed A.engine D
  agree : AgreeOnWatch A.engine.backend D
  safe : KeysSafe A
  cts : ∀ om ∈ A.models, ∀ om' ∈ A.models, om.model.ct = om'.model.ct → om = om'
  tables : ∀ om ∈ A.models, ∀ om' ∈ A.models, om.model.table = om'.model.table → om = om'
  known : ∀ dn ∈ D, ∃ om ∈ A.models, om.model = dn.model
  this : ∀ dn ∈ D, ∀ d ∈ dn.deps, d.this = dn.model
  pkTable : ∀ dn ∈ D, dn.model.pkTable = dn.model.table
  others : ∀ dn ∈ D, ∀ d ∈ dn.deps, ∀ om ∈ A.models, om.model.table = d.other.table → om.model.pk = d.other.pk
  generic : ∀ dn ∈ D, ∀ d ∈ dn.deps, ∀ g, d.rel ≠ .backwardM2M (.generic g) ∧ (d.rel = .forwardM2M (.generic g) → A.engine.backend ≠ .mysql)
  through : ∀ dn ∈ D, ∀ d ∈ dn.deps, ∀ l ∈ d.m2mTable, ∀ om ∈ A.models, om.model.table ≠ l.1
  fixed : ∀ dn ∈ D, ∀ d ∈ dn.deps, (∀ p ∈ d.looks, ¬ Touched A p.1 p.2) ∧ ∀ c ∈ d.ownKeys, ¬ Touched A d.this.table c
  fixedFk : ∀ a, Denorm.aggregate a ∈ D → ¬ Touched A a.related.table a.fk.attname

/-- Every marker's content type belongs to a model. -/
def MarksKnown (A : App) (db : Db) : Prop := ∀ m ∈ db.dirty, ∃ om ∈ A.models, om.model.ct = m.ct

/-- The recursion limit of the database is not hit by a statement that fires every trigger once. -/
def FuelEnough (A : App) : Prop := (A.engine.triggers.flatMap (·.actions)).length < A.fuel

/-- A project with `@denormalized` fields only (no CountField, SumField, CacheKeyField), whose declarations are on its own models, and whose
statements do not run into the recursion limit. -/
structure Calm (A : App) (D : List Denorm) : Prop where
  installed : Installed A.engine D
  callbacks : ∀ dn ∈ D, ∃ bu md f sk ds, dn = .callback bu md f sk ds
  this : ∀ dn ∈ D, ∀ d ∈ dn.deps, d.this = dn.model
  known : ∀ dn ∈ D, ∃ om ∈ A.models, om.model = dn.model
  safe : KeysSafe A
  fuel : FuelEnough A

end Denorm
