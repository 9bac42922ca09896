import Verif.Sql.Upsert
import Verif.Spec.Legal
import Verif.Spec.Aggregate
/-!
# Upserts that respect keys
-/
namespace Denorm

/-- The rows among `ops` that are inserted. -/
def insertedRows (ops : List RowOp) : List Row := ops.filterMap fun | .ins r => some r | _ => none

/-- `L` holds of the plain statements a write is made of: the INSERT of the rows that are inserted, the UPDATEs of those that are
updated. -/
def DbWrite.Parts (L : Stmt → Prop) (db : Db) : DbWrite → Prop
  | .stmt s => L s
  | .upsert t us oc rs => L (.insert t (insertedRows (upsertOps us oc rs (db.rows t)))) ∧
      ∀ σ, oc = .doUpdate σ → ∀ r ∈ rs, L (.update t (fun _ => true) fun _ x => σ r x)
  | .replace t _ rs => L (.insert t rs)

/-- A write that respects primary keys and many-to-many constraints (`LegalStmt`). `REPLACE` is left out on sqlite (there the property
fails) and for the other model of a many-to-many relation. -/
def LegalWrite (E : Engine) (cb : Callback) (db : Db) (w : DbWrite) : Prop :=
  w.Parts (LegalStmt E cb db) db ∧
  ∀ t us rs, w = .replace t us rs → E.backend ≠ .sqlite ∧ ∀ d ∈ cb.deps, d.dep.other.table = t → d.dep.m2mTable = none

/-- Every write of a history is legal at the moment it is executed. -/
def LegalWrites (E : Engine) (cb : Callback) (fuel : Nat) : List DbWrite → Db → Prop
  | [], _ => True
  | w :: ws, db => LegalWrite E cb db w ∧
    match E.write fuel db w with
    | .ok db' => LegalWrites E cb fuel ws db'
    | .error _ => LegalWrites E cb fuel ws db

/-- Upserts and `REPLACE` into a table that is related to itself are left out for aggregates, and `REPLACE` on sqlite (there the property
fails). -/
def DbWrite.Simple (E : Engine) (a : AggDenorm) : DbWrite → Prop
  | .stmt _ => True
  | .upsert t _ _ _ => t = a.model.table → t ≠ a.related.table
  | .replace t _ _ => E.backend ≠ .sqlite ∧ (t = a.model.table → t ≠ a.related.table)

/-- Every write of a history keeps a SumField's assumptions (`AggLegal`) at the moment it is executed. -/
def SumWrites (E : Engine) (a : AggDenorm) (S : List (TableName × Col)) (fuel : Nat) : List DbWrite → Db → Prop
  | [], _ => True
  | w :: ws, db => (w.Parts (AggLegal a S db) db ∧ w.Simple E a) ∧
    match E.write fuel db w with
    | .ok db' => SumWrites E a S fuel ws db'
    | .error _ => SumWrites E a S fuel ws db

/-- Every write of a history keeps a CountField's assumptions (`CountLegal`) at the moment it is executed. -/
def CountWrites (E : Engine) (a : AggDenorm) (fuel : Nat) : List DbWrite → Db → Prop
  | [], _ => True
  | w :: ws, db => (w.Parts (CountLegal a db) db ∧ w.Simple E a) ∧
    match E.write fuel db w with
    | .ok db' => CountWrites E a fuel ws db'
    | .error _ => CountWrites E a fuel ws db

end Denorm
