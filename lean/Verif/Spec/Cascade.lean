import Verif.Sql.Cascade
import Verif.Spec.Legal
import Verif.Spec.Aggregate
/-!
# Histories on a database whose foreign keys delete and clear rows
-/
namespace Denorm

/-- The foreign keys leave alone what a `@denormalized` field relies on: they clear no primary key, and they delete no rows of the other
model of a many-to-many relation. -/
def RefsOk (cb : Callback) (fs : List ForeignRef) : Prop := ∀ f ∈ fs,
  match f.action with
  | .cascade => ∀ d ∈ cb.deps, d.dep.other.table = f.table → d.dep.m2mTable = none
  | .setNull => ∀ p ∈ cb.pks, p.1 = f.table → p.2 ≠ f.col

/-- Every statement of a history is legal at the moment it is executed (`LegalStmt`), and deletes no rows of the other model of a
many-to-many relation. -/
def LegalRefs (E : Engine) (cb : Callback) (fs : List ForeignRef) (fuel : Nat) : List Stmt → Db → Prop
  | [], _ => True
  | s :: ss, db => (LegalStmt E cb db s ∧ ∀ t w, s = .delete t w → ∀ d ∈ cb.deps, d.dep.other.table = t → d.dep.m2mTable = none) ∧
    match E.execRefs fs fuel s db with
    | .ok db' => LegalRefs E cb fs fuel ss db'
    | .error _ => LegalRefs E cb fs fuel ss db

/-- The foreign keys clear neither an integer column nor the primary key or the aggregate of a counted instance. -/
def AggRefsOk (a : AggDenorm) (S : List (TableName × Col)) (fs : List ForeignRef) : Prop := ∀ f ∈ fs, f.action = .setNull →
  (f.table, f.col) ∉ S ∧ (f.table = a.model.table → f.col ≠ a.model.pk ∧ f.col ≠ a.fieldname)

/-- Every statement of a history keeps a SumField's assumptions (`AggLegal`) at the moment it is executed. -/
def SumRefs (E : Engine) (a : AggDenorm) (S : List (TableName × Col)) (fs : List ForeignRef) (fuel : Nat) : List Stmt → Db → Prop
  | [], _ => True
  | s :: ss, db => AggLegal a S db s ∧
    match E.execRefs fs fuel s db with
    | .ok db' => SumRefs E a S fs fuel ss db'
    | .error _ => SumRefs E a S fs fuel ss db

/-- Every statement of a history keeps a CountField's assumptions (`CountLegal`) at the moment it is executed. -/
def CountRefs (E : Engine) (a : AggDenorm) (fs : List ForeignRef) (fuel : Nat) : List Stmt → Db → Prop
  | [], _ => True
  | s :: ss, db => CountLegal a db s ∧
    match E.execRefs fs fuel s db with
    | .ok db' => CountRefs E a fs fuel ss db'
    | .error _ => CountRefs E a fs fuel ss db

end Denorm
