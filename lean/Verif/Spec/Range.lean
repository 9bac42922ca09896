import Verif.Spec.Aggregate
import Verif.Spec.Reach
/-!
# What fits into an aggregate's column

A CountField or SumField is a PositiveIntegerField (fields.py:103): sqlite and PostgreSQL give its column a CHECK that it is at least zero, MySQL
makes it UNSIGNED; an UPDATE that would leave a negative number in it fails, and with it the statement whose triggers it belongs to.
-/
namespace Denorm

/-- The row does not carry a negative number in the column that is summed (for a CountField: always). -/
def AggDenorm.NonNeg (a : AggDenorm) (o : Row) : Prop := ∀ f, a.agg = .sum f → 0 ≤ (o f).toInt

/-- The statement writes no negative numbers into the summed column. -/
def NonNegLegal (a : AggDenorm) : Stmt → Prop
  | .insert t rs => t = a.related.table → ∀ r ∈ rs, a.NonNeg r
  | .update t _ σ => t = a.related.table → ∀ x r, a.NonNeg r → a.NonNeg (σ x r)
  | .delete _ _ => True

/-- No row of the model violates the constraint of the aggregate's column. -/
def InRange (a : AggDenorm) (db : Db) : Prop := ∀ r ∈ db.rows a.model.table, ∃ n, r a.fieldname = .int n ∧ 0 ≤ n

/-- The statement is refused: on its way some UPDATE leaves a number outside the range. -/
def RefusedByRange (E : Engine) (a : AggDenorm) (s : Stmt) (db : Db) : Prop :=
  ∃ W db', E.Reach (E.start s db) db W db' ∧ ∃ r ∈ db'.rows a.model.table, ∃ n, r a.fieldname = .int n ∧ n < 0

end Denorm
