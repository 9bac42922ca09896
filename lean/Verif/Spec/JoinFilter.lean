import Verif.Code.JoinFilter
import Verif.Spec.Aggregate
/-!
# What a lookup that follows relations means
-/
namespace Denorm

/-- The value at the end of a lookup, e.g. `o.author.group.name`; NULL if the way there ends early. -/
def valueAt (db : Db) : List Hop → Col → Row → Val
  | [], c, o => o c
  | h :: hs, c, o =>
    match (db.rows h.table).find? fun r => Val.sqlEq (r h.pk) (o h.column) with
    | some r => valueAt db hs c r
    | none => .null

/-- The row satisfies one keyword of `filter=`/`exclude=`. -/
def PathCond.Matches (p : PathCond) (db : Db) (o : Row) : Prop := p.cond.Matches fun _ => valueAt db p.hops p.cond.col o

instance (p : PathCond) (db : Db) (o : Row) : Decidable (p.Matches db o) := by unfold PathCond.Matches; infer_instance

/-- `o` is one of `manager.filter(**filter).exclude(**exclude)` of the instance with primary key `k`. -/
def JoinAgg.Selects (a : JoinAgg) (db : Db) (k : Val) (o : Row) : Prop :=
  o a.fk.column = k ∧ k ≠ .null ∧ (∀ p ∈ a.filter, p.Matches db o) ∧ (a.exclude = [] ∨ ∃ p ∈ a.exclude, ¬ p.Matches db o)

instance (a : JoinAgg) (db : Db) (k : Val) (o : Row) : Decidable (a.Selects db k o) := by unfold JoinAgg.Selects; infer_instance

/-- `manager.filter(**filter).exclude(**exclude).count()` for the instance with primary key `k`. -/
def JoinAgg.count (a : JoinAgg) (db : Db) (k : Val) : Nat := ((db.rows a.related.table).filter fun o => decide (a.Selects db k o)).length

/-- The ForeignKeys on the way refer to rows that exist. -/
def Intact (db : Db) : List Hop → Row → Prop
  | [], _ => True
  | h :: hs, o => o h.column = .null ∨ (∃ r ∈ db.rows h.table, r h.pk = o h.column) ∧
      ∀ r ∈ db.rows h.table, r h.pk = o h.column → Intact db hs r

/-- The column of the row itself that a lookup starts with. -/
def ownColumn : List Hop → Col → Col
  | [], c => c
  | h :: _, _ => h.column

/-- The lookup asks for nothing but keys: `author=5`, `author__id=5`, `author__pk__gt=5`; or for a column of the row itself. -/
def KeyOnly : List Hop → Col → Prop
  | [], _ => True
  | h :: hs, c => KeyOnly hs c ∧ ownColumn hs c = h.pk

instance : ∀ hs c, Decidable (KeyOnly hs c)
  | [], _ => .isTrue trivial
  | h :: hs, c => @instDecidableAnd _ _ (instDecidableKeyOnly hs c) _

/-- All lookups are of this kind. -/
def JoinAgg.Keys (a : JoinAgg) : Prop := ∀ p ∈ a.filter ++ a.exclude, KeyOnly p.hops p.cond.col

/-- The same condition on the row's own column. -/
def PathCond.flat (p : PathCond) : Cond := { p.cond with col := ownColumn p.hops p.cond.col }

/-- The aggregate with its conditions on the related row's own columns. -/
def JoinAgg.flat (a : JoinAgg) : AggDenorm := ⟨a.model, a.fieldname, a.related, a.fk, a.agg, a.filter.map PathCond.flat, a.exclude.map PathCond.flat, a.skip⟩

end Denorm
