import Verif.Spec.Declared
/-!
# Which rows a change concerns
-/
namespace Denorm

/-- The contents a written row had before and after. -/
def Change.versions (ch : Change) : List Row :=
  match ch.event with
  | .insert => [ch.new]
  | .update => [ch.old, ch.new]
  | .delete => [ch.old]

/-- Row `o` of the other model is related to row `r` of the declaring model. -/
def Dep.relatedTo (d : Dep) (db : Db) (r o : Row) : Prop :=
  match d.rel with
  | .forward f => Val.sqlEq (r f.column) (o d.other.pk) = true
  | .backward f => Val.sqlEq (o f.column) (r d.this.pk) = true
  | .forwardM2M (.m2m m) => ∃ l ∈ db.rows m.through, Val.sqlEq (l m.colName) (r d.this.pk) = true ∧
      Val.sqlEq (l m.revName) (o d.other.pk) = true
  | .backwardM2M (.m2m m) => ∃ l ∈ db.rows m.through, Val.sqlEq (l m.revName) (r d.this.pk) = true ∧
      Val.sqlEq (l m.colName) (o d.other.pk) = true
  | .forwardM2M (.generic g) => Val.sqlEq (o (g.ctFieldName ++ "_id")) (.int d.this.ct) = true ∧
      Val.sqlEq (o g.objectIdField) (r d.this.pk) = true
  | .backwardM2M (.generic g) => Val.sqlEq (r (g.ctFieldName ++ "_id")) (.int d.other.ct) = true ∧
      Val.sqlEq (r g.objectIdField) (o d.other.pk) = true

instance (d : Dep) (db : Db) (r o : Row) : Decidable (d.relatedTo db r o) := by
  unfold Dep.relatedTo; split <;> infer_instance

/-- The table of the other model. -/
def Dep.otherTable (d : Dep) : TableName :=
  match d.rel with
  | .forwardM2M (.generic g) => g.remoteTable
  | _ => d.other.table

/-- The columns of the other model's table that say which row it is related to. -/
def Dep.relCols (d : Dep) : List Col :=
  match d.rel with
  | .backward f => [f.column]
  | .forwardM2M (.generic g) => [g.ctFieldName ++ "_id", g.objectIdField]
  | _ => []

/-- The written row is a row of the other model related to `r` before or after the change, and something the callback looks at
changed; or it is a row of the intermediate table that links `r` before or after the change. -/
def DepRead.Concerns (d : DepRead) (db : Db) (ch : Change) (r : Row) : Prop :=
  (ch.table = d.dep.otherTable ∧ (∃ o ∈ ch.versions, d.dep.relatedTo db r o) ∧
    (ch.event = .update → ∃ c ∈ d.dep.relCols ++ d.reads, ch.old c ≠ ch.new c)) ∨
  (∃ tbl c k, d.dep.m2mTable = some (tbl, c, k) ∧ ch.table = tbl ∧ (∃ l ∈ ch.versions, Val.sqlEq (l c) (r d.dep.this.pk) = true) ∧
    (ch.event = .update → ch.old c ≠ ch.new c ∨ ch.old k ≠ ch.new k))

/-- The row changes a list of row writes makes, each with the database right after it. -/
def opChanges (E : Engine) (t : TableName) : List RowOp → Db → List (Change × Db)
  | [], _ => []
  | op :: ops, db => (applyOp E t op db).2.map (fun ch => (ch, (applyOp E t op db).1)) ++ opChanges E t ops (applyOp E t op db).1

/-- All row changes made while a statement runs, whether by the statement itself or by triggers, each with the database right after
it. -/
def Engine.changes (E : Engine) : Nat → List Item → Db → List (Change × Db)
  | _, [], _ => []
  | 0, _ :: _, _ => []
  | n + 1, it :: W, db =>
    (match it with
      | .write _ t ops => opChanges E t ops db
      | .act .. => []) ++
    match E.step it db with
    | .ok (new, db') => E.changes n (new ++ W) db'
    | .error _ => []

/-- All row changes made by statement `s`. -/
def Engine.changesOf (E : Engine) (fuel : Nat) (s : Stmt) (db : Db) : List (Change × Db) := E.changes fuel (E.start s db) db

end Denorm
