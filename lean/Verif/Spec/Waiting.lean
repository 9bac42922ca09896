import Verif.Code.Waiting
import Verif.Spec.Aggregate
import Verif.Spec.Finishes
import Verif.Spec.Transactions
/-!
# Waiting: specification
-/
namespace Denorm

/-- A project whose counters lead upwards along the foreign keys: the tables can be put on levels `ρ` so that each foreign key constraint and each aggregate refers to a
table further down; the rows of a table are counted or summed along one foreign key only (though by any number of aggregates); there are callbacks but no CacheKeyFields;
aggregates are neither primary nor foreign keys. -/
structure CountsUp (S : Schema) (D : List Denorm) (ρ : TableName → Nat) : Prop where
  kinds : ∀ dn ∈ D, (∃ bu m f sk ds, dn = .callback bu m f sk ds) ∨ ∃ a, dn = .aggregate a
  level : ∀ a, .aggregate a ∈ D → ρ a.model.table < ρ a.related.table
  constraints : ∀ t, ∀ p ∈ S.refs t, ρ p.2 < ρ t
  oneLink : ∀ a a', .aggregate a ∈ D → .aggregate a' ∈ D → a.related.table = a'.related.table →
    a.model.table = a'.model.table ∧ a.fk.attname = a'.fk.attname
  key : ∀ a, .aggregate a ∈ D → S.key a.model.table = a.model.pk
  notKey : ∀ a, .aggregate a ∈ D → a.fieldname ≠ a.model.pk
  notLink : ∀ a a', .aggregate a ∈ D → .aggregate a' ∈ D → a'.related.table = a.model.table → a.fieldname ≠ a'.fk.attname
  notRef : ∀ a, .aggregate a ∈ D → ∀ p ∈ S.refs a.model.table, a.fieldname ≠ p.1
  names : TableNamesClear D

/-- The statement writes one row at most, and does not give the row another primary key or another parent (a row it is counted for). -/
def WritesOne (S : Schema) (D : List Denorm) (s : Stmt) (db : Db) : Prop :=
  (s.ops db).length ≤ 1 ∧
    match s with
    | .update t _ σ => ∀ x, ∀ r ∈ db.rows t, σ x r (S.key t) = r (S.key t) ∧
        ∀ a, .aggregate a ∈ D → a.related.table = t → σ x r a.fk.attname = r a.fk.attname
    | _ => True

/-- The locks of some statement that writes one row, issued in some state. -/
def OneRowLocks (A : App) (S : Schema) (D : List Denorm) (p : List Lock) : Prop :=
  ∃ s db, KeysDistinct S db ∧ WritesOne S D s db ∧ p = A.stmtLocks S s db

end Denorm
