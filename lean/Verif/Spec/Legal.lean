import Verif.Spec.Callback
/-!
# Statements a database with its usual constraints lets through

django-denorm relies on primary keys: they are not NULL and are never changed by an UPDATE. For many-to-many relations it also
relies on the foreign key constraints of the intermediate table: a row is inserted before it is linked to and unlinked before it is
deleted.
-/
namespace Denorm

/-- Column `col` of table `t` is written by some trigger (CountField, SumField and CacheKeyField columns). -/
def Managed (E : Engine) (t : TableName) (col : Col) : Prop :=
  ∃ tr ∈ E.triggers, ∃ u, Action.update u ∈ tr.actions ∧ u.table = t ∧ u.col = col

/-- For a many-to-many relation: the intermediate table, its column for this model and its column for the other model. -/
def Dep.m2mTable (d : Dep) : Option (TableName × Col × Col) :=
  match d.rel with
  | .forwardM2M (.m2m m) => some (m.through, m.colName, m.revName)
  | .backwardM2M (.m2m m) => some (m.through, m.revName, m.colName)
  | _ => none

/-- No link of a many-to-many relation points to row `o` of the other model. -/
def Unlinked (d : Dep) (db : Db) (o : Row) : Prop :=
  ∀ tbl c k, d.m2mTable = some (tbl, c, k) → ∀ l ∈ db.rows tbl, ¬ Val.sqlEq (o d.other.pk) (l k) = true

/-- The primary keys of the models involved in a callback. -/
def Callback.pks (cb : Callback) : List (TableName × Col) :=
  (cb.model.table, cb.model.pk) :: cb.deps.map fun d => (d.dep.other.table, d.dep.other.pk)

/-- A statement that respects primary keys and many-to-many constraints. (A DELETE on the other model of a many-to-many
relation is also required not to select by trigger-maintained columns.) -/
def LegalStmt (E : Engine) (cb : Callback) (db : Db) : Stmt → Prop
  | .insert t rs => ∀ r ∈ rs, (∀ p ∈ cb.pks, p.1 = t → r p.2 ≠ .null) ∧
      ∀ d ∈ cb.deps, d.dep.other.table = t → Unlinked d.dep db r
  | .update t _ σ => ∀ p ∈ cb.pks, p.1 = t → ∀ x r, σ x r p.2 = r p.2
  | .delete t w => ∀ d ∈ cb.deps, d.dep.other.table = t → d.dep.m2mTable ≠ none →
      (∀ r ∈ db.rows t, w r = true → Unlinked d.dep db r) ∧
      ∀ col, Managed E t col → ∀ r r' : Row, (∀ c, c ≠ col → r c = r' c) → w r = w r'

/-- All primary keys are non-NULL. -/
def KeysOk (cb : Callback) (db : Db) : Prop := ∀ p ∈ cb.pks, ∀ r ∈ db.rows p.1, r p.2 ≠ .null

/-- Every statement of a history is legal at the moment it is executed. -/
def LegalRun (E : Engine) (cb : Callback) (fuel : Nat) : List Stmt → Db → Prop
  | [], _ => True
  | s :: ss, db => LegalStmt E cb db s ∧
    match E.exec fuel s db with
    | .ok db' => LegalRun E cb fuel ss db'
    | .error _ => LegalRun E cb fuel ss db

/-- sqlite does not enter a trigger that is already running. No trigger can, through the columns its actions write, lead back to
itself. -/
def NoReentry (E : Engine) : Prop :=
  E.backend = .sqlite → ∃ rank : String → Nat, ∀ tr ∈ E.triggers, ∀ u, Action.update u ∈ tr.actions →
    ∀ tr' ∈ E.triggers, tr'.table = u.table → tr'.event = .update → u.col ∈ tr'.fields → rank tr'.name < rank tr.name

end Denorm
