import Verif.Code.Crew
import Verif.Spec.Session
/-!
# Several flush() at the same time
-/
namespace Denorm

/-- Neither triggers nor the saves of flush() change this column: no CountField, SumField, CacheKeyField or `@denormalized` field. -/
def Still (A : App) (D : List Denorm) (t : TableName) (c : Col) : Prop :=
  (∀ dn ∈ D, (t, c) ∉ dn.writes) ∧ ∀ om ∈ A.models, om.model.table = t → c ∉ om.denormCols

instance (A : App) (D : List Denorm) (t : TableName) (c : Col) : Decidable (Still A D t c) := by unfold Still; infer_instance

/-- Everything a callback is computed from, apart from its own primary key. -/
def Callback.inputs (cb : Callback) : List (TableName × Col) :=
  (cb.own ++ cb.deps.flatMap fun d => d.dep.ownKeys).map (fun c => (cb.model.table, c)) ++ cb.deps.flatMap DepRead.sees

/-- The field `cb` of the model `om` is computed from plain data only.
* `inputs`: from nothing that is itself computed or maintained by triggers,
* `keys`: primary keys are plain data too,
* `only`: no other model (a proxy) writes to the same table,
* the other conditions are those of `Flushable` that are still needed. -/
structure Unchained (A : App) (D : List Denorm) (om : OrmModel) (cb : Callback) : Prop where
  installed : Installed A.engine D
  declared : WellDeclared A.engine.backend D cb
  noReentry : NoReentry A.engine
  found : A.models.find? (fun om => om.model.ct == cb.model.ct) = some om
  model : om.model = cb.model
  cols : om.cols.Nodup
  saved : ⟨cb.field, .callback cb⟩ ∈ om.saved
  inputs : ∀ p ∈ cb.inputs, Still A D p.1 p.2
  field : ∀ dn ∈ D, (cb.model.table, cb.field) ∉ dn.writes
  keys : ∀ om' ∈ A.models, Still A D om'.model.table om'.model.pk
  kept : ∀ om' ∈ A.models, om'.model.pk ∉ om'.cols
  pks : ∀ om' ∈ A.models, ∀ p ∈ cb.pks, p.1 = om'.model.table → p.2 ∉ om'.cols
  only : ∀ om' ∈ A.models, om'.model.table = om.model.table → om' = om

/-- What other sessions may do while flush() is called any number of times: execute statements that respect primary keys and many-to-many
constraints, after which keys are still unique, and that leave the instances alone that a call of flush() has loaded and not yet finished. -/
def Discreet (A : App) (cb : Callback) : List CrewTurn → List Pc × Db → Prop
  | [], _ => True
  | .other s :: ts, st =>
    LegalStmt A.engine cb st.2 s ∧
    (∀ db', A.exec s st.2 = .ok db' → KeysUnique A db' ∧ ∀ pc ∈ st.1, ∀ m, pc.busy = some m → LeavesAlone A m st.2 db') ∧
    Discreet A cb ts (A.crewTurn (.other s) st)
  | t :: ts, st => Discreet A cb ts (A.crewTurn t st)

end Denorm
