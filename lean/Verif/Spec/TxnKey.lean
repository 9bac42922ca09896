import Verif.Spec.Transactions
import Verif.Spec.CacheKey
/-!
# Cache keys among transactions
-/
namespace Denorm

/-- As far as the CacheKeyField watches them, the rows related to instance `r` of `db` are the same as those related to instance `r'` of `db'`. -/
def KeyField.SameSight (k : KeyField) (db : Db) (r : Row) (db' : Db) (r' : Row) : Prop :=
  ∀ d ∈ k.deps, ∀ x, x ∈ seen d.reads (relatedRows d.dep db r) ↔ x ∈ seen d.reads (relatedRows d.dep db' r')

instance (k : KeyField) (db : Db) (r : Row) (db' : Db) (r' : Row) : Decidable (k.SameSight db r db' r') :=
  decidable_of_iff (∀ d ∈ k.deps, (∀ x ∈ seen d.reads (relatedRows d.dep db r), x ∈ seen d.reads (relatedRows d.dep db' r')) ∧
      ∀ x ∈ seen d.reads (relatedRows d.dep db' r'), x ∈ seen d.reads (relatedRows d.dep db r))
    ⟨fun h d hd x => ⟨(h d hd).1 x, (h d hd).2 x⟩, fun h d hd => ⟨fun x => (h d hd x).1, fun x => (h d hd x).2⟩⟩

/-- The instance that row `o` of the other model refers to, if the relation is one that is followed backwards or a GenericRelation. -/
def Dep.target (d : Dep) (o : Row) : Val :=
  match d.rel with
  | .backward f => o f.column
  | .forwardM2M (.generic g) => if Val.sqlEq (o (g.ctFieldName ++ "_id")) (.int d.this.ct) then o g.objectIdField else .null
  | _ => .null

/-- The foreign key constraints: whatever refers to an instance refers to one that exists. -/
def KeyField.Refer (k : KeyField) (db : Db) : Prop :=
  ∀ d ∈ k.deps, ∀ o ∈ db.rows d.dep.otherTable, d.dep.target o ≠ .null → ∃ r ∈ db.rows k.model.table, r k.model.pk = d.dep.target o

instance (k : KeyField) (db : Db) : Decidable (k.Refer db) := by unfold KeyField.Refer; infer_instance

/-- The rows the statement writes keep their keys or get keys that the database will not draw later. -/
def KeyField.SparesDraws (k : KeyField) (E : Engine) (db : Db) : Stmt → Prop
  | .insert t rs => t = k.model.table → ∀ r ∈ rs, ∀ n, db.draws ≤ n → r k.field ≠ .int (E.rand n)
  | .update t _ σ => t = k.model.table → ∀ x r, σ x r k.field = r k.field ∨ ∀ n, db.draws ≤ n → σ x r k.field ≠ .int (E.rand n)
  | .delete _ _ => True

/-- Every instance in `v` has the key that it had in `db`, or a key that the database has drawn meanwhile, or one that Python has drawn and that the instance had in
none of the states `past`. -/
def KeyField.Renewed (k : KeyField) (E : Engine) (past : List Db) (db v : Db) : Prop :=
  ∀ r' ∈ v.rows k.model.table,
    (∃ r ∈ db.rows k.model.table, r k.model.pk = r' k.model.pk ∧ r k.field = r' k.field) ∨
    (∃ n, db.draws ≤ n ∧ r' k.field = .int (E.rand n)) ∨
    ∀ old ∈ past, ∀ r ∈ old.rows k.model.table, r k.model.pk = r' k.model.pk → r k.field ≠ r' k.field

/-- What the sessions may do, at every moment of the schedule (`past`: the committed states up to now): execute statements that respect primary keys and leave the foreign
key constraints intact, as far as the session itself can see. Keys drawn by Python, in the sessions or by flush(), are new. -/
def KeyOrderly (A : App) (S : Schema) (k : KeyField) : List Db → List Move → DbServer → Prop
  | _, [], _ => True
  | past, μ :: μs, X =>
    (match μ with
      | .stmt i s => LegalStmt A.engine k.relations (X.sight S i).1 s ∧ KeepsKeys S (X.sight S i).1 s ∧ KeyLegal k (X.sight S i).1 s ∧
          k.SparesDraws A.engine (X.sight S i).1 s ∧
          ∀ v, A.exec s (X.sight S i).1 = .ok v → k.Refer v ∧ k.Renewed A.engine ((X.sight S i).1 :: X.db :: past) (X.sight S i).1 v
      | .flushOne m =>
          (∀ om ∈ A.models, ∀ r ∈ X.db.rows om.model.table, ∀ mem, preSaveAll A om.model X.db false om.saved r = .ok mem → k.SparesDraws A.engine X.db (saveUpdate om mem)) ∧
          ∀ db', A.flushOne m X.db = .ok db' → k.Refer db' ∧ k.Renewed A.engine (X.db :: past) X.db db'
      | _ => True) ∧
    KeyOrderly A S k (X.db :: past) μs (A.move S X μ)

/-- What is required of the project: the triggers are installed, the random numbers of the database do not repeat, the related rows refer to the instance, their primary keys
are watched (a `skip` list does not name them), and nothing but INSERT writes primary keys. -/
structure KeySetting (A : App) (S : Schema) (D : List Denorm) (k : KeyField) : Prop where
  installed : Installed A.engine D
  declared : KeyDeclared A.engine.backend D k
  noReentry : NoReentry A.engine
  rand : ∀ m n, A.engine.rand m = A.engine.rand n → m = n
  byValue : ByValue k.relations
  key : S.key k.model.table = k.model.pk
  reads : ∀ d ∈ k.deps, S.key d.dep.otherTable ∈ d.reads
  unmanaged : ∀ t, ¬ Managed A.engine t (S.key t)
  pks : ∀ om ∈ A.models, om.model.pk ∉ om.cols
  models : ∀ om ∈ A.models, S.key om.model.table = om.model.pk
  relations : ∀ om ∈ A.models, ∀ p ∈ k.relations.pks, p.1 = om.model.table → p.2 ∉ om.cols

end Denorm
