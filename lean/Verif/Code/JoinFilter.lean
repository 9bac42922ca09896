import Verif.Code.GetTriggers
/-!
# filter= and exclude= with lookups that follow relations

`CountField('post_set', filter={'author__active': True})`. The condition is built by Django's query compiler on a `TriggerFilterQuery` whose first "table" is NEW or OLD
(denorms.py:285-301, 404-420). The compiler adds a JOIN for each relation of the lookup; `AggregateDenorm.get_triggers` takes the WHERE part only.

Django is read as follows (django/db/models/sql/query.py, `setup_joins`, `trim_joins`, `join`, `table_alias`): each ForeignKey of a lookup is a join, which is reused if the same
join is already there; a joined table is called by its name, or by `T<n>` if that name is taken, where n - 1 is the number of tables so far; joins at the end of the lookup
that are needed for the referenced key only are left out again, the ForeignKey's own column is used instead. Only ForeignKeys and OneToOneFields in forward direction are
modelled.
-/
namespace Denorm

/-- A ForeignKey in a lookup: its column, and the table and primary key it refers to. -/
structure Hop where
  column : Col
  table : TableName
  pk : Col
deriving DecidableEq, Repr

/-- `author__group__name__gt=5`: ForeignKeys, and a condition on a column of the table they lead to. -/
structure PathCond where
  hops : List Hop
  cond : Cond
deriving DecidableEq, Repr

/-- An entry of `Query.alias_map`. -/
structure JoinRec where
  alias : String
  parent : String
  table : TableName
  column : Col
deriving DecidableEq, Repr

/-- `Query.join` and `Query.table_alias`; the trigger alias itself is the first entry of `alias_map` and not in the list. -/
def joinTo (m : List JoinRec) (parent : String) (h : Hop) : List JoinRec × String :=
  match m.find? fun j => decide (j.parent = parent ∧ j.table = h.table ∧ j.column = h.column) with
  | some j => (m, j.alias)
  | none =>
    let alias := if m.any fun j => decide (j.table = h.table) then "T" ++ toString (m.length + 2) else h.table
    (m ++ [⟨alias, parent, h.table, h.column⟩], alias)

/-- `Query.setup_joins`: the joins so far, and the aliases along the lookup. -/
def setupJoins (m : List JoinRec) (parent : String) : List Hop → List JoinRec × List String
  | [] => (m, [])
  | h :: hs =>
    let p := joinTo m parent h
    let q := setupJoins p.1 p.2 hs
    (q.1, p.2 :: q.2)

/-- `Query.trim_joins`: what is left of the lookup, and the column at its end. -/
def trimJoins : List Hop → Col → List Hop × Col
  | [], c => ([], c)
  | h :: hs, c =>
    match trimJoins hs c with
    | ([], c') => if c' = h.pk then ([], h.column) else ([h], c')
    | (h' :: hs', c') => (h :: h' :: hs', c')

/-- A column in the condition: `alias.column`. -/
structure Ref where
  alias : String
  col : Col
deriving DecidableEq, Repr

/-- The reference as text, without quotes (`TriggerWhereNode.sql_for_columns`, denorms.py:264-282). -/
def Ref.text (r : Ref) : String := r.alias ++ "." ++ r.col

/-- The condition of one lookup; its column is written as reference. -/
def PathCond.compile (start : String) (m : List JoinRec) (p : PathCond) : List JoinRec × Ref × Cond :=
  let q := setupJoins m start p.hops
  let t := trimJoins p.hops p.cond.col
  let x : Ref := ⟨(start :: q.2)[t.1.length]?.getD start, t.2⟩
  (q.1, x, { p.cond with col := x.text })

/-- The conditions of a dictionary, one after the other (`Query.add_q`, denorms.py:405-406 and 412-413). -/
def compileConds (start : String) : List JoinRec → List PathCond → List JoinRec × List (Ref × Cond)
  | m, [] => (m, [])
  | m, p :: ps =>
    let q := p.compile start m
    let rest := compileConds start q.1 ps
    (rest.1, q.2 :: rest.2)

def Side.text : Side → String
  | .new => "NEW"
  | .old => "OLD"

/-- An `AggregateDenorm` over a ForeignKey manager whose conditions may follow relations. -/
structure JoinAgg where
  model : Model
  fieldname : Col
  related : Model
  fk : Field
  agg : Agg
  filter : List PathCond := []
  exclude : List PathCond := []
  skip : List String := []
deriving DecidableEq, Repr

/-- `inc_query` / `dec_query` (denorms.py:404-414): the conditions of filter and exclude. -/
def JoinAgg.compiled (a : JoinAgg) (s : Side) : List (Ref × Cond) × List (Ref × Cond) :=
  let f := compileConds s.text [] a.filter
  (f.2, (compileConds s.text f.1 a.exclude).2)

/-- The columns that the WHERE part mentions. -/
def JoinAgg.refs (a : JoinAgg) (s : Side) : List Ref := ((a.compiled s).1 ++ (a.compiled s).2).map Prod.fst

/-- `inc_query.where.as_sql(..)`: the WHERE part, without the joins (denorms.py:408, 414). -/
def JoinAgg.cond (a : JoinAgg) (s : Side) : Option Filter := whereOf ((a.compiled s).1.map Prod.snd) ((a.compiled s).2.map Prod.snd)

/-- The columns in scope are those of the updated row and of NEW or OLD. -/
def JoinAgg.env (a : JoinAgg) (s : Side) (side r : Row) : Row := fun q =>
  match (a.refs s).find? fun x => decide (x.text = q) with
  | some x => if x.alias = s.text then side x.col else r x.col
  | none => .null

/-- The WHERE clause on a row of the aggregate's table (denorms.py:393-396, 416-419). -/
def JoinAgg.where_ (a : JoinAgg) (s : Side) (side r : Row) : Bool :=
  Val.sqlEq (r a.model.pk) (side a.fk.attname) && match a.cond s with
    | none => true
    | some f => f.holds (a.env s side r)

/-- The database finds all columns: each is one of NEW (or OLD), or of the updated table. -/
def JoinAgg.Resolved (a : JoinAgg) (s : Side) : Prop := ∀ x ∈ a.refs s, x.alias = s.text ∨ x.alias = a.model.table

instance (a : JoinAgg) (s : Side) : Decidable (a.Resolved s) := by unfold JoinAgg.Resolved; infer_instance

/-- "no such column: author.active" (sqlite), "missing FROM-clause entry for table "author"" (PostgreSQL), "Unknown column 'author.active' in 'where clause'" (MySQL). -/
inductive NameErr where
  | noSuchColumn
deriving DecidableEq, Repr

/-- One action, `UPDATE model SET field = field ± .. WHERE ..` (denorms.py:421-432). None of the databases looks at the columns when the trigger is created; the statement fails when
it is run (sqlite: when the statement that fires it is prepared). -/
def JoinAgg.run (a : JoinAgg) (s : Side) (ch : Change) (db : Db) : Except NameErr Db :=
  if a.Resolved s then
    let e := match s with
      | .new => a.agg.incr
      | .old => a.agg.decr
    .ok (db.setRows a.model.table ((db.rows a.model.table).map fun r =>
      if a.where_ s (ch.side s) r then r.set a.fieldname (e.eval (r a.fieldname) 0 ch db) else r))
  else .error .noSuchColumn

/-- The three triggers (denorms.py:434-438) for a change of the related table. Simplification: the triggers of other declarations are not considered, nor does the aggregate's table
have any. -/
def JoinAgg.fire (a : JoinAgg) (b : Backend) (ch : Change) (db : Db) : Except NameErr Db :=
  match ch.event with
  | .insert => a.run .new ch db
  | .delete => a.run .old ch db
  | .update =>
    if (b = .mysql ∧ watchedFields a.related a.skip = []) ∨ changedCols (watchedFields a.related a.skip) ch.old ch.new = true then
      (a.run .new ch db).bind (a.run .old ch)
    else .ok db

/-- INSERT of a related row. -/
def JoinAgg.insert (a : JoinAgg) (b : Backend) (o : Row) (db : Db) : Except NameErr Db :=
  a.fire b ⟨a.related.table, .insert, o, o⟩ (db.setRows a.related.table (db.rows a.related.table ++ [o]))

/-- DELETE of the related row at position `i`. -/
def JoinAgg.delete (a : JoinAgg) (b : Backend) (i : Nat) (db : Db) : Except NameErr Db :=
  match (db.rows a.related.table)[i]? with
  | none => .ok db
  | some o => a.fire b ⟨a.related.table, .delete, o, o⟩ (db.setRows a.related.table ((db.rows a.related.table).eraseIdx i))

/-- UPDATE of the related row at position `i`. -/
def JoinAgg.change (a : JoinAgg) (b : Backend) (i : Nat) (n : Row) (db : Db) : Except NameErr Db :=
  match (db.rows a.related.table)[i]? with
  | none => .ok db
  | some o => a.fire b ⟨a.related.table, .update, o, n⟩ (db.setRows a.related.table ((db.rows a.related.table).set i n))

end Denorm
