import Verif.Spec.Range
import Verif.Sql.Store
/-!
# Columns that take a value as it is
-/
namespace Denorm

/-- The aggregate's own column as it is: a PositiveIntegerField, numbers in units of `1/u`. -/
def AggDenorm.column (a : AggDenorm) (b : Backend) (u : Nat) : Store := positiveColumn b u a.model.table a.fieldname

/-- At some moment of the statement the aggregate of some instance is a number (or NULL) that its column does not take; whole numbers only. -/
def RefusedByColumn (E : Engine) (a : AggDenorm) (s : Stmt) (db : Db) : Prop :=
  ∃ W db', E.Reach (E.start s db) db W db' ∧ ∃ r ∈ db'.rows a.model.table,
    r a.fieldname = .null ∨ ∃ n, r a.fieldname = .int n ∧ (n < 0 ∨ ∃ l, E.backend.intLimit = some l ∧ l < n)

/-- Every instance's aggregate is a number that the column takes as it is: whole, not negative, not too large. -/
def FitsColumn (b : Backend) (u : Nat) (a : AggDenorm) (db : Db) : Prop :=
  ∀ r ∈ db.rows a.model.table, ∃ n, r a.fieldname = .int n ∧ 0 ≤ n ∧ (u : Int) ∣ n ∧ ∀ l, b.intLimit = some l → n ≤ l * u

/-- The value is a whole number, where numbers are given in units of `1/u`. -/
def Val.Whole (u : Nat) (v : Val) : Prop := ∀ n, v = .int n → (u : Int) ∣ n

/-- The row has a whole number in the column that is summed. -/
def AggDenorm.WholeRow (a : AggDenorm) (u : Nat) (o : Row) : Prop := ∀ f, a.agg = .sum f → (o f).Whole u

/-- The statement writes whole numbers only into the summed column. -/
def WholeLegal (a : AggDenorm) (u : Nat) : Stmt → Prop
  | .insert t rs => t = a.related.table → ∀ r ∈ rs, a.WholeRow u r
  | .update t _ σ => t = a.related.table → ∀ x r, a.WholeRow u r → a.WholeRow u (σ x r)
  | .delete _ _ => True

/-- At no moment of the history is the aggregate larger than its column allows. -/
def NeverTooLarge (E : Engine) (u : Nat) (a : AggDenorm) (fuel : Nat) : List Stmt → Db → Prop
  | [], _ => True
  | s :: ss, db =>
    (∀ W db', E.Reach (E.start s db) db W db' → ∀ r ∈ db'.rows a.model.table, ∀ n l, r a.fieldname = .int n → E.backend.intLimit = some l → n ≤ l * u) ∧
    match E.exec fuel s db with
    | .ok db' => NeverTooLarge E u a fuel ss db'
    | .error _ => NeverTooLarge E u a fuel ss db

end Denorm
