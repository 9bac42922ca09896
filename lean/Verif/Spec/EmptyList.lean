import Verif.Code.EmptyList
import Verif.Spec.Aggregate
/-!
# What filters with empty lists mean

As in a Django query: nothing is one of an empty list.
-/
namespace Denorm

/-- The row satisfies the keyword. -/
def Kw.Matches : Kw → Row → Prop
  | .cond c, o => c.Matches o
  | .emptyIn _, _ => False

instance Kw.decMatches : (k : Kw) → (o : Row) → Decidable (k.Matches o)
  | .cond c, o => by unfold Kw.Matches; infer_instance
  | .emptyIn _, _ => by unfold Kw.Matches; infer_instance

/-- `o` is one of `manager.filter(**filter).exclude(**exclude)` of the instance with primary key `k`. -/
def KwAgg.Selects (a : KwAgg) (k : Val) (o : Row) : Prop :=
  o a.base.fk.column = k ∧ k ≠ .null ∧ (∀ c ∈ a.filter, c.Matches o) ∧ (a.exclude = [] ∨ ∃ c ∈ a.exclude, ¬ c.Matches o)

instance KwAgg.decSelects (a : KwAgg) (k : Val) (o : Row) : Decidable (a.Selects k o) := by unfold KwAgg.Selects; infer_instance

/-- The keyword has no empty list. -/
def Kw.conds : Kw → List Cond
  | .cond c => [c]
  | .emptyIn _ => []

def Kw.isEmpty : Kw → Bool
  | .cond _ => false
  | .emptyIn _ => true

/-- The declaration without empty lists: nothing is excluded by an `exclude=` with an empty list in it. -/
def KwAgg.norm (a : KwAgg) : AggDenorm :=
  { a.base with filter := a.filter.flatMap Kw.conds, exclude := if a.exclude.any Kw.isEmpty then [] else a.exclude.flatMap Kw.conds }

def KwDecl.norm : KwDecl → Denorm
  | .plain d => d
  | .agg k => .aggregate k.norm

/-- A `filter=` has an empty list in it. -/
def KwDecl.Hopeless : KwDecl → Prop
  | .plain _ => False
  | .agg k => ∃ c, .emptyIn c ∈ k.filter

end Denorm
