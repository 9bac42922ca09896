import Verif.Code.Orm
import Verif.Spec.Declared
import Verif.Spec.Affected
/-!
# When saving an instance once makes it right

`flush` saves an instance and then discards its markers, including any that the save itself has just created. That is sound only if the
save does not change what the instance's own callbacks look at. The conditions here say so; each one excludes a violation that is
a theorem of its own (`Props/Flush.lean`).
-/
namespace Denorm

/-- The columns save() may give a value that differs from the loaded one. -/
def Kind.computed : Kind → Bool
  | .callback _ => true
  | .cacheKey => true
  | _ => false

def OrmModel.cols (om : OrmModel) : List Col := om.saved.map SaveField.col

def OrmModel.denormCols (om : OrmModel) : List Col := (om.saved.filter fun f => f.kind.computed).map SaveField.col

/-- The trigger's UPDATE condition may be TRUE although no watched column changed (see C06, C07). -/
def DbTrigger.Unconditional (tr : DbTrigger) : Prop := tr.fields = [] ∨ tr.ctField ≠ none

/-- Column `c` of table `t` may be rewritten by triggers as a consequence of saving an instance of `om`. -/
inductive Reached (E : Engine) (om : OrmModel) : TableName → Col → Prop where
  | direct {tr u} : tr ∈ E.triggers → tr.table = om.model.table → tr.event = .update →
      (tr.Unconditional ∨ ∃ c ∈ tr.fields, c ∈ om.denormCols) → Action.update u ∈ tr.actions → Reached E om u.table u.col
  | next {t c tr u} : Reached E om t c → tr ∈ E.triggers → tr.table = t → tr.event = .update →
      (tr.Unconditional ∨ c ∈ tr.fields) → Action.update u ∈ tr.actions → Reached E om u.table u.col

/-- Flushing may change column `c` of table `t`. -/
def Touched (A : App) (t : TableName) (c : Col) : Prop :=
  ∃ om ∈ A.models, (t = om.model.table ∧ c ∈ om.denormCols) ∨ Reached A.engine om t c

/-- The columns of other tables that say which rows are related to a given row. -/
def Dep.looks (d : Dep) : List (TableName × Col) :=
  match d.rel with
  | .forward _ => [(d.other.table, d.other.pk)]
  | .backward f => [(d.other.table, f.column)]
  | .forwardM2M (.m2m m) => [(m.through, m.colName), (m.through, m.revName), (d.other.table, d.other.pk)]
  | .backwardM2M (.m2m m) => [(m.through, m.colName), (m.through, m.revName), (d.other.table, d.other.pk)]
  | .forwardM2M (.generic g) => [(g.remoteTable, g.ctFieldName ++ "_id"), (g.remoteTable, g.objectIdField)]
  | .backwardM2M (.generic _) => [(d.other.table, d.other.pk)]

/-- Everything a dependency looks at in other rows. -/
def DepRead.sees (d : DepRead) : List (TableName × Col) := d.dep.looks ++ d.reads.map fun c => (d.dep.otherTable, c)

/-- No instance is related to itself through this dependency. -/
def NoSelfRelation (m : Model) (d : Dep) (db : Db) : Prop :=
  ∀ r ∈ db.rows m.table, ∀ o ∈ relatedRows d db r, o m.pk ≠ r m.pk

/-- Saving an instance of `cb`'s model does not change what `cb` sees of the other rows: triggers do not rewrite it, and the columns that
the save itself writes are not looked at, or only in other instances of the model. -/
structure DepStable (A : App) (om : OrmModel) (d : DepRead) (db : Db) : Prop where
  triggers : ∀ p ∈ d.sees, ¬ Reached A.engine om p.1 p.2
  self : (∀ p ∈ d.sees, p.1 = om.model.table → p.2 ∉ om.denormCols) ∨
    (d.dep.otherTable = om.model.table ∧ NoSelfRelation om.model d.dep db ∧
      (∀ p ∈ d.dep.looks, ¬ Touched A p.1 p.2) ∧ ∀ c ∈ d.dep.ownKeys, ¬ Touched A om.model.table c)

/-- Neither save() nor a trigger in consequence of it writes a primary key. -/
structure KeysSafe (A : App) : Prop where
  kept : ∀ om ∈ A.models, ∀ om' ∈ A.models, om.model.table = om'.model.table → om.model.pk ∉ om'.cols
  free : ∀ om ∈ A.models, ∀ om' ∈ A.models, ¬ Reached A.engine om' om.model.table om.model.pk

/-- The project `A` with declarations `D` handles the callback field `cb` of model `om` well, starting from `db`.
* `order`: what the callback reads of its own row is not computed by a later field of the same model (C45),
* `own`: nor rewritten by triggers in consequence of the save,
* `deps`: see `DepStable`. -/
structure Flushable (A : App) (D : List Denorm) (om : OrmModel) (cb : Callback) (db : Db) : Prop where
  installed : Installed A.engine D
  declared : WellDeclared A.engine.backend D cb
  noReentry : NoReentry A.engine
  found : A.models.find? (fun om => om.model.ct == cb.model.ct) = some om
  model : om.model = cb.model
  cols : om.cols.Nodup
  order : ∃ pre post, om.saved = pre ++ ⟨cb.field, .callback cb⟩ :: post ∧
    ∀ c ∈ cb.own ++ cb.deps.flatMap (fun d => d.dep.ownKeys), c ≠ cb.field ∧ ∀ f ∈ post, f.kind.computed = true → f.col ≠ c
  own : ∀ c ∈ cb.ownCols, ¬ Reached A.engine om om.model.table c
  deps : ∀ d ∈ cb.deps, DepStable A om d db
  pks : ∀ om' ∈ A.models, ∀ p ∈ cb.pks, p.1 = om'.model.table → p.2 ∉ om'.cols
  safe : KeysSafe A

/-- One save() of an instance makes its callback field right, as far as the model and the callback are concerned (the conditions of
`Flushable` that do not speak of the callback's own triggers). -/
structure Savable (A : App) (om : OrmModel) (cb : Callback) (db : Db) : Prop where
  this : ∀ d ∈ cb.deps, d.dep.this = cb.model
  oneWay : ∀ d ∈ cb.deps, ∀ g, d.dep.rel ≠ .backwardM2M (.generic g)
  found : A.models.find? (fun om => om.model.ct == cb.model.ct) = some om
  model : om.model = cb.model
  cols : om.cols.Nodup
  order : ∃ pre post, om.saved = pre ++ ⟨cb.field, .callback cb⟩ :: post ∧
    ∀ c ∈ cb.own ++ cb.deps.flatMap (fun d => d.dep.ownKeys), c ≠ cb.field ∧ ∀ f ∈ post, f.kind.computed = true → f.col ≠ c
  own : ∀ c ∈ cb.ownCols, ¬ Reached A.engine om om.model.table c
  deps : ∀ d ∈ cb.deps, DepStable A om d db
  pks : ∀ om' ∈ A.models, ∀ p ∈ cb.pks, p.1 = om'.model.table → p.2 ∉ om'.cols
  safe : KeysSafe A

/-- Primary keys are unique and not NULL. -/
def KeysUnique (A : App) (db : Db) : Prop :=
  ∀ om ∈ A.models, ((db.rows om.model.table).map fun r => r om.model.pk).Nodup ∧ ∀ r ∈ db.rows om.model.table, r om.model.pk ≠ .null

end Denorm
