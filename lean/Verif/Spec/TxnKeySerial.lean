import Verif.Spec.TxnKey
/-!
# Cache keys among transactions that do not overlap
-/
namespace Denorm

/-- No two sessions have written something and not yet committed, and flush() saves nothing while a session has: every move that has an effect is made when no other
transaction is open. -/
def Serial (A : App) (S : Schema) : List Move → DbServer → Prop
  | [], _ => True
  | μ :: μs, X =>
    (match μ with
      | .stmt i _ => A.move S X μ = X ∨ ∀ (j : Nat) T, X.sessions[j]? = some (some T) → j = i
      | .flushOne _ => A.move S X μ = X ∨ ∀ T, some T ∉ X.sessions
      | _ => True) ∧
    Serial A S μs (A.move S X μ)

/-- An instance that keeps its key refers to the same rows as before: who changes a ForeignKey saves the instance, and save() draws a new key. -/
def KeyField.Steady (k : KeyField) (db v : Db) : Prop :=
  ∀ r ∈ db.rows k.model.table, ∀ r' ∈ v.rows k.model.table, r k.model.pk = r' k.model.pk → r k.field = r' k.field → ∀ c ∈ k.fks, r' c = r c

instance (k : KeyField) (db v : Db) : Decidable (k.Steady db v) := by unfold KeyField.Steady; infer_instance

/-- What the sessions may do: `KeyOrderly` without foreign key constraints, for all kinds of relations. -/
def KeyOrderlyAll (A : App) (S : Schema) (k : KeyField) : List Db → List Move → DbServer → Prop
  | _, [], _ => True
  | past, μ :: μs, X =>
    (match μ with
      | .stmt i s => LegalStmt A.engine k.relations (X.sight S i).1 s ∧ KeepsKeys S (X.sight S i).1 s ∧ KeyLegal k (X.sight S i).1 s ∧
          k.SparesDraws A.engine (X.sight S i).1 s ∧
          ∀ v, A.exec s (X.sight S i).1 = .ok v → k.Steady (X.sight S i).1 v ∧ k.Renewed A.engine ((X.sight S i).1 :: X.db :: past) (X.sight S i).1 v
      | .flushOne m =>
          (∀ om ∈ A.models, ∀ r ∈ X.db.rows om.model.table, ∀ mem, preSaveAll A om.model X.db false om.saved r = .ok mem → k.SparesDraws A.engine X.db (saveUpdate om mem)) ∧
          ∀ db', A.flushOne m X.db = .ok db' → k.Steady X.db db' ∧ k.Renewed A.engine (X.db :: past) X.db db'
      | _ => True) ∧
    KeyOrderlyAll A S k (X.db :: past) μs (A.move S X μ)

/-- What is required of the project: `KeySetting` for all kinds of relations but a GenericForeignKey of the model itself. -/
structure KeySettingAll (A : App) (S : Schema) (D : List Denorm) (k : KeyField) : Prop where
  installed : Installed A.engine D
  declared : KeyDeclared A.engine.backend D k
  noReentry : NoReentry A.engine
  rand : ∀ m n, A.engine.rand m = A.engine.rand n → m = n
  generic : ∀ d ∈ k.deps, ∀ g, d.dep.rel ≠ .backwardM2M (.generic g)
  key : S.key k.model.table = k.model.pk
  unmanaged : ∀ t, ¬ Managed A.engine t (S.key t)
  pks : ∀ om ∈ A.models, om.model.pk ∉ om.cols
  models : ∀ om ∈ A.models, S.key om.model.table = om.model.pk
  relations : ∀ om ∈ A.models, ∀ p ∈ k.relations.pks, p.1 = om.model.table → p.2 ∉ om.cols

end Denorm
