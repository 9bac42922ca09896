import Verif.Spec.Declared
/-!
# What a CountField or SumField should contain

Written without reference to triggers.
-/
namespace Denorm

/-- The row satisfies one keyword of `filter=`/`exclude=`: `col=None` means the column is NULL; any other comparison is not satisfied
by NULL. -/
def Cond.Matches (c : Cond) (o : Row) : Prop :=
  if c.lookup = .exact ∧ c.value = .null then o c.col = .null
  else o c.col ≠ .null ∧ match c.lookup with
    | .exact => o c.col = c.value
    | .gt => Val.lt c.value (o c.col) = true
    | .gte => Val.lt c.value (o c.col) = true ∨ o c.col = c.value
    | .lt => Val.lt (o c.col) c.value = true
    | .lte => Val.lt (o c.col) c.value = true ∨ o c.col = c.value
    | .oneOf more => o c.col ∈ c.value :: more
    | .between hi => (Val.lt c.value (o c.col) = true ∨ o c.col = c.value) ∧ (Val.lt (o c.col) hi = true ∨ o c.col = hi)

instance (c : Cond) (o : Row) : Decidable (c.Matches o) := by
  unfold Cond.Matches
  cases c.lookup <;> infer_instance

/-- `o` is one of `manager.filter(**filter).exclude(**exclude)` of the instance with primary key `k`. -/
def AggDenorm.Selects (a : AggDenorm) (k : Val) (o : Row) : Prop :=
  o a.fk.column = k ∧ k ≠ .null ∧ (∀ c ∈ a.filter, c.Matches o) ∧ (a.exclude = [] ∨ ∃ c ∈ a.exclude, ¬ c.Matches o)

instance (a : AggDenorm) (k : Val) (o : Row) : Decidable (a.Selects k o) := by unfold AggDenorm.Selects; infer_instance

/-- NULL counts as zero in `SUM(..) or 0`. -/
def Val.toInt : Val → Int
  | .int i => i
  | _ => 0

/-- What `manager.filter(**filter).exclude(**exclude).count()` or `.aggregate(Sum(field))` gives for the instance with primary
key `k`. -/
def AggDenorm.total (a : AggDenorm) (db : Db) (k : Val) : Int :=
  match a.agg with
  | .count => ((db.rows a.related.table).filter fun o => decide (a.Selects k o)).length
  | .sum f => (((db.rows a.related.table).filter fun o => decide (a.Selects k o)).map fun o => (o f).toInt).sum

/-- Every instance's aggregate field holds the right number. -/
def AggOk (a : AggDenorm) (db : Db) : Prop := ∀ r ∈ db.rows a.model.table, r a.fieldname = .int (a.total db (r a.model.pk))

/-- The columns of the related table that decide what a row contributes. -/
def AggDenorm.relevant (a : AggDenorm) : List Col :=
  a.fk.column :: (a.filter ++ a.exclude).map Cond.col ++
    match a.agg with
    | .count => []
    | .sum f => [f]

/-- The aggregate `a` is one of the declarations `D`, and
* for each of its triggers, the first declaration that uses the same trigger name watches at least the same columns (C08),
* it is the only declaration whose triggers write its column; triggers write neither the primary key nor the ForeignKey,
* what it looks at is not in a skip list and is a local column; `db_column` of the ForeignKey is not set,
* filter and exclude do not compare with None by anything but equality (Django refuses that, or drops it from the list of `in`). -/
structure AggDeclared (b : Backend) (D : List Denorm) (a : AggDenorm) : Prop where
  declared : .aggregate a ∈ D
  covered : ∀ g ∈ a.triggers, Covered b D g
  only : ∀ dn ∈ D, (a.model.table, a.fieldname) ∈ dn.writes → dn = .aggregate a
  pk : ∀ dn ∈ D, (a.model.table, a.model.pk) ∉ dn.writes
  fk : ∀ dn ∈ D, (a.related.table, a.fk.column) ∉ dn.writes
  watched : ∀ c ∈ a.relevant, Watchable a.related a.skip c
  fkcol : a.fk.column = a.fk.attname
  conds : ∀ c ∈ a.filter ++ a.exclude, .null ∈ c.values → c.lookup = .exact

/-- Columns that hold integers as far as triggers are concerned: the value a trigger puts there is computed from integers. -/
def IntClosed (b : Backend) (D : List Denorm) (S : List (TableName × Col)) : Prop :=
  ∀ a, .aggregate a ∈ D → (a.model.table, a.fieldname) ∈ S → (∀ g ∈ a.triggers, Covered b D g) ∧
    ∀ f, a.agg = .sum f → (a.related.table, f) ∈ S

/-- Row `r` of table `t` has integers in the columns of `S`. -/
def IntRow (S : List (TableName × Col)) (t : TableName) (r : Row) : Prop := ∀ c, (t, c) ∈ S → ∃ i, r c = .int i

/-- A statement that keeps `a`'s assumptions:
* it writes integers into the integer columns `S`,
* it changes neither primary keys of counted rows nor the aggregate column itself (a save() writes back the stored value, see C13),
* a new instance starts with zero and nothing refers to it yet (except the new row to itself). -/
def AggLegal (a : AggDenorm) (S : List (TableName × Col)) (db : Db) : Stmt → Prop
  | .insert t rs => (∀ r ∈ rs, IntRow S t r) ∧
      (t = a.model.table → (∀ r ∈ rs, r a.fieldname = .int 0 ∧ ∀ o ∈ db.rows a.related.table, ¬ Val.sqlEq (o a.fk.column) (r a.model.pk) = true) ∧
        (t = a.related.table → rs.Pairwise fun r r' => ¬ Val.sqlEq (r a.fk.column) (r' a.model.pk) = true))
  | .update t _ σ => (∀ x r, IntRow S t r → IntRow S t (σ x r)) ∧
      (t = a.model.table → ∀ x r, σ x r a.model.pk = r a.model.pk ∧ σ x r a.fieldname = r a.fieldname)
  | .delete _ _ => True

/-- Every statement of a history is legal at the moment it is executed. -/
def AggLegalRun (E : Engine) (a : AggDenorm) (S : List (TableName × Col)) (fuel : Nat) : List Stmt → Db → Prop
  | [], _ => True
  | s :: ss, db => AggLegal a S db s ∧
    match E.exec fuel s db with
    | .ok db' => AggLegalRun E a S fuel ss db'
    | .error _ => AggLegalRun E a S fuel ss db

/-- A statement that keeps a CountField's assumptions:
* it changes neither the primary key of counted instances nor the count itself (a save() writes back the stored value, see C13),
* a new instance starts with zero and nothing refers to it yet; a statement that inserts several rows of a self-relation inserts
  referenced rows first (or rows may refer to themselves and earlier rows). -/
def CountLegal (a : AggDenorm) (db : Db) : Stmt → Prop
  | .insert t rs => t = a.model.table →
      (∀ r ∈ rs, r a.fieldname = .int 0 ∧ ∀ o ∈ db.rows a.related.table, ¬ Val.sqlEq (o a.fk.column) (r a.model.pk) = true) ∧
      (t = a.related.table → rs.Pairwise fun r r' => ¬ Val.sqlEq (r a.fk.column) (r' a.model.pk) = true)
  | .update t _ σ => t = a.model.table → ∀ x r, σ x r a.model.pk = r a.model.pk ∧ σ x r a.fieldname = r a.fieldname
  | .delete _ _ => True

/-- Every statement of a history is legal at the moment it is executed. -/
def CountLegalRun (E : Engine) (a : AggDenorm) (fuel : Nat) : List Stmt → Db → Prop
  | [], _ => True
  | s :: ss, db => CountLegal a db s ∧
    match E.exec fuel s db with
    | .ok db' => CountLegalRun E a fuel ss db'
    | .error _ => CountLegalRun E a fuel ss db

/-- Every instance's CountField (without filter) holds the number of rows whose ForeignKey points to it. -/
def CountIsRight (a : AggDenorm) (db : Db) : Prop :=
  ∀ r ∈ db.rows a.model.table,
    r a.fieldname = .int ((db.rows a.related.table).countP fun o => Val.sqlEq (o a.fk.column) (r a.model.pk))

/-- Every instance's SumField (without filter) holds the sum of the column over the rows whose ForeignKey points to it, NULL counting
as zero. -/
def SumIsRight (a : AggDenorm) (f : Col) (db : Db) : Prop :=
  ∀ r ∈ db.rows a.model.table,
    r a.fieldname = .int (((db.rows a.related.table).filter fun o => Val.sqlEq (o a.fk.column) (r a.model.pk)).map fun o => (o f).toInt).sum

end Denorm
