import Verif.Sql.Value
/-!
# A relational engine with AFTER ROW triggers

What the three supported databases do with the SQL that django-denorm emits. The actions are a deep embedding of exactly the
statement shapes the library produces.
-/
namespace Denorm

/-- A row of `denorm_dirtyinstance` (models.py:7-19) without its surrogate key. Simplification: `object_id` is a text
column; we keep the primary key value itself instead of its textual form. There is no unique constraint
(migrations/0001_initial.py), so the table is a multiset: a list here. -/
structure Mark where
  ct : Nat
  oid : Val
deriving DecidableEq, Repr

/-- Database state: the ordinary tables, the dirty table, and how many random draws were made so far. -/
structure Db where
  rows : TableName → List Row
  dirty : List Mark
  draws : Nat

def Db.setRows (db : Db) (t : TableName) (rs : List Row) : Db :=
  { db with rows := fun t' => if t' = t then rs else db.rows t' }

def Db.addMarks (db : Db) (ms : List Mark) : Db := { db with dirty := db.dirty ++ ms }

inductive Event where
  | insert | update | delete
deriving DecidableEq, Repr

/-- `NEW` or `OLD`. -/
inductive Side where
  | new | old
deriving DecidableEq, Repr

/-- What happened to one row. For an insert `old` is meaningless, for a delete `new` is. -/
structure Change where
  table : TableName
  event : Event
  old : Row
  new : Row

def Change.side (ch : Change) : Side → Row
  | .new => ch.new
  | .old => ch.old

/-- Right operand of `col + ..` / `col - ..` in an aggregate's SET clause (denorms.py:469-533). -/
inductive Term where
  /-- `1` -/
  | one
  /-- `NEW.c` / `OLD.c` -/
  | ref (s : Side) (c : Col)
  /-- `(SELECT sel FROM t WHERE k = NEW.c)` (m2m sums, denorms.py:479-503) -/
  | scalar (sel : Col) (t : TableName) (k : Col) (s : Side) (c : Col)
deriving DecidableEq, Repr

/-- The new value in `SET col = ..`. -/
inductive SetExpr where
  | plus (t : Term)
  | minus (t : Term)
  /-- `RandomBigInt` (base.py:5, sqlite3/triggers.py:10-12 etc.), one draw per updated row -/
  | random
deriving DecidableEq, Repr

/-- The part of an UPDATE action's WHERE that looks at the row being updated. -/
inductive Key where
  /-- `k = NEW.c` -/
  | eq (k : Col) (s : Side) (c : Col)
  /-- `k IN (SELECT sel FROM t WHERE wk = NEW.c)` -/
  | inSelect (k : Col) (sel : Col) (t : TableName) (wk : Col) (s : Side) (c : Col)
deriving DecidableEq, Repr

/-- The further conjuncts of an aggregate's WHERE: they look only at NEW/OLD (and possibly a third table). -/
inductive Guard where
  /-- filter/exclude rewritten to refer to NEW/OLD (denorms.py:405-420) -/
  | filter (s : Side) (f : Filter)
  /-- `(SELECT COUNT(*) FROM t WHERE f AND k = NEW.c) > 0` (denorms.py:323-341) -/
  | someRow (t : TableName) (f : Filter) (k : Col) (s : Side) (c : Col)
deriving DecidableEq, Repr

/-- `UPDATE table SET col = expr WHERE key AND guards` (TriggerActionUpdate, base.py:38-52). -/
structure UpdAction where
  table : TableName
  col : Col
  expr : SetExpr
  key : Key
  guards : List Guard
deriving DecidableEq, Repr

/-- One trigger action. The flag `quoted` tells whether the text has the column name in quotes; it has no influence on the meaning, but actions are
compared as text when repetitions are removed. -/
inductive Action where
  /-- `INSERT INTO denorm_dirtyinstance (content_type_id, object_id) VALUES (ct, NEW.c)`; `quoted` is about `c` -/
  | markValues (ct : Nat) (s : Side) (c : Col) (quoted : Bool)
  /-- `INSERT INTO denorm_dirtyinstance (..) SELECT DISTINCT ct, sel FROM t WHERE k = NEW.c`
  (TriggerActionInsert with TriggerNestedSelect, base.py:10-36); `quoted` is about `sel` -/
  | markSelect (ct : Nat) (sel : Col) (t : TableName) (k : Col) (s : Side) (c : Col) (quoted : Bool)
  | update (u : UpdAction)
deriving DecidableEq, Repr

inductive Backend where
  | sqlite | mysql | postgresql
deriving DecidableEq, Repr

/-- An installed trigger: `CREATE TRIGGER name AFTER event ON table FOR EACH ROW ..`. -/
structure DbTrigger where
  name : String
  table : TableName
  event : Event
  /-- columns compared in the UPDATE condition -/
  fields : List Col
  /-- generic relations: the content type column the condition looks at -/
  ctField : Option Col
  ct : Nat
  actions : List Action
deriving DecidableEq, Repr

/-- Some watched column changed (null-safe). -/
def changedCols (fields : List Col) (old new : Row) : Bool := fields.any fun f => Val.isNot (old f) (new f)

/-- The row belongs to content type `ct` (`OLD.ctf = ct`). -/
def hasCt (c : Col) (ct : Nat) (r : Row) : Bool := Val.sqlEq (r c) (.int ct)

/-- Whether the trigger's condition is TRUE for a change; the meaning of the text emitted by sqlite3/triggers.py:84-98,
postgresql/triggers.py:87-118 and mysql/triggers.py:80-97. That the text does parse to this is proved in `Props/CondText.lean`:
note the PostgreSQL case, where AND binds tighter than OR. -/
def DbTrigger.fires (b : Backend) (tr : DbTrigger) (ch : Change) : Bool :=
  match tr.event with
  | .update =>
    let changed := changedCols tr.fields ch.old ch.new
    match b, tr.ctField with
    | .sqlite, none => changed
    | .sqlite, some c => changed && (hasCt c tr.ct ch.old || hasCt c tr.ct ch.new)
    | .postgresql, none => changed
    | .postgresql, some c => (changed && hasCt c tr.ct ch.old) || hasCt c tr.ct ch.new
    | .mysql, _ => tr.fields.isEmpty || changed
  | .insert =>
    match b, tr.ctField with
    | .mysql, _ => true
    | _, none => true
    | _, some c => hasCt c tr.ct ch.new
  | .delete =>
    match b, tr.ctField with
    | .mysql, _ => true
    | _, none => true
    | _, some c => hasCt c tr.ct ch.old

/-- Order-preserving removal of elements already seen: the `actions_added` loop of `Trigger.sql`
(sqlite3/triggers.py:66-76, postgresql/triggers.py:70-80, mysql/triggers.py:62-72). -/
def dedupFrom {α : Type _} [DecidableEq α] (seen : List α) : List α → List α
  | [] => []
  | a :: as => if a ∈ seen then dedupFrom seen as else a :: dedupFrom (a :: seen) as

/-- Also SQL `SELECT DISTINCT`. -/
def dedup {α : Type _} [DecidableEq α] (l : List α) : List α := dedupFrom [] l

def Term.eval (t : Term) (ch : Change) (db : Db) : Val :=
  match t with
  | .one => .int 1
  | .ref s c => ch.side s c
  | .scalar sel t k s c =>
    match (db.rows t).find? (fun r => Val.sqlEq (r k) (ch.side s c)) with
    | some r => r sel
    | none => .null

def SetExpr.eval (e : SetExpr) (cur : Val) (draw : Int) (ch : Change) (db : Db) : Val :=
  match e with
  | .plus t => Val.add cur (t.eval ch db)
  | .minus t => Val.sub cur (t.eval ch db)
  | .random => .int draw

def Key.matches (k : Key) (ch : Change) (db : Db) (r : Row) : Bool :=
  match k with
  | .eq k s c => Val.sqlEq (r k) (ch.side s c)
  | .inSelect k sel t wk s c =>
    (db.rows t).any fun l => Val.sqlEq (l wk) (ch.side s c) && Val.sqlEq (r k) (l sel)

def Guard.holds (g : Guard) (ch : Change) (db : Db) : Bool :=
  match g with
  | .filter s f => f.holds (ch.side s)
  | .someRow t f k s c => (db.rows t).any fun r => f.holds r && Val.sqlEq (r k) (ch.side s c)

/-- The UPDATE action's WHERE clause on a row. -/
def UpdAction.where_ (u : UpdAction) (ch : Change) (db : Db) (r : Row) : Bool :=
  u.key.matches ch db r && u.guards.all (fun g => g.holds ch db)

/-- The UPDATE action's SET clause on a row. -/
def UpdAction.set (u : UpdAction) (ch : Change) (db : Db) (draw : Int) (r : Row) : Row :=
  r.set u.col (u.expr.eval (r u.col) draw ch db)

/-- What can go wrong inside a statement: recursion limit, or MySQL's error 1442 (a trigger may not update a table
that the statement that fired it is using). In both cases the database rolls the statement back. -/
inductive DbErr where
  | depth
  | tableInUse (t : TableName)
deriving DecidableEq, Repr

/-- The database: which backend, which triggers are installed, which random numbers come. -/
structure Engine where
  backend : Backend
  triggers : List DbTrigger
  rand : Nat → Int

/-- The triggers and tables in use by the enclosing statements. -/
structure Frame where
  trigs : List String
  tables : List TableName

def Frame.top : Frame := ⟨[], []⟩

/-- One row written by a statement. Updated rows are addressed by their position in the table. -/
inductive RowOp where
  | ins (r : Row)
  /-- rewrite the row at position `i`; the function may use a random number -/
  | upd (i : Nat) (σ : Int → Row → Row)
  /-- remove the first row that satisfies `w` -/
  | del (w : Row → Bool)

/-- Writes one row and reports the change. -/
def applyOp (E : Engine) (t : TableName) (op : RowOp) (db : Db) : Db × List Change :=
  match op with
  | .ins r => (db.setRows t (db.rows t ++ [r]), [⟨t, .insert, r, r⟩])
  | .upd i σ =>
    match (db.rows t)[i]? with
    | none => (db, [])
    | some old =>
      let new := σ (E.rand db.draws) old
      ({ db.setRows t ((db.rows t).set i new) with draws := db.draws + 1 }, [⟨t, .update, old, new⟩])
  | .del w =>
    match (db.rows t).find? w with
    | none => (db, [])
    | some old => (db.setRows t ((db.rows t).eraseP w), [⟨t, .delete, old, old⟩])

/-- Writes rows in order. -/
def applyOps (E : Engine) (t : TableName) : List RowOp → Db → Db × List Change
  | [], db => (db, [])
  | op :: ops, db =>
    let p := applyOp E t op db
    let q := applyOps E t ops p.1
    (q.1, p.2 ++ q.2)

/-- What is left to do within a running statement. -/
inductive Item where
  /-- write these rows, then queue the triggers they fire -/
  | write (fr : Frame) (t : TableName) (ops : List RowOp)
  /-- run one action of a fired trigger -/
  | act (fr : Frame) (ch : Change) (a : Action)

/-- PostgreSQL queues AFTER ROW triggers until the whole statement has been applied; sqlite and MySQL fire them row by
row. -/
def writes (b : Backend) (fr : Frame) (t : TableName) (ops : List RowOp) : List Item :=
  match b with
  | .postgresql => [.write fr t ops]
  | _ => ops.map fun op => .write fr t [op]

/-- Whether the backend runs this trigger for this change at this point. sqlite's recursive_triggers pragma is off by default:
a trigger is not entered while it is already active. -/
def Engine.enters (E : Engine) (fr : Frame) (ch : Change) (tr : DbTrigger) : Bool :=
  decide (tr.table = ch.table) && decide (tr.event = ch.event) && tr.fires E.backend ch &&
    !(decide (E.backend = .sqlite) && decide (tr.name ∈ fr.trigs))

/-- The actions to run for one row change, trigger by trigger. -/
def Engine.fired (E : Engine) (fr : Frame) (ch : Change) : List Item :=
  (E.triggers.filter (E.enters fr ch)).flatMap fun tr =>
    tr.actions.map (.act ⟨tr.name :: fr.trigs, ch.table :: fr.tables⟩ ch)

/-- Positions of the rows a WHERE selects. -/
def targetsOf (rows : List Row) (w : Row → Bool) : List Nat :=
  (List.range rows.length).filter fun i => match rows[i]? with
    | some r => w r
    | none => false

/-- The rows written by an UPDATE action. -/
def UpdAction.ops (u : UpdAction) (ch : Change) (db : Db) : List RowOp :=
  (targetsOf (db.rows u.table) (u.where_ ch db)).map fun i => .upd i (u.set ch db)

/-- The markers inserted by a `SELECT DISTINCT` action. -/
def selectMarks (ct : Nat) (sel : Col) (rows : List Row) (k : Col) (v : Val) : List Mark :=
  dedup ((rows.filter fun r => Val.sqlEq (r k) v).map fun r => ⟨ct, r sel⟩)

/-- Carries out one item; returns what has to be done next, before anything else. -/
def Engine.step (E : Engine) : Item → Db → Except DbErr (List Item × Db)
  | .write fr t ops, db =>
    .ok ((applyOps E t ops db).2.flatMap (E.fired fr), (applyOps E t ops db).1)
  | .act _ ch (.markValues ct s c _), db => .ok ([], db.addMarks [⟨ct, ch.side s c⟩])
  | .act _ ch (.markSelect ct sel t k s c _), db => .ok ([], db.addMarks (selectMarks ct sel (db.rows t) k (ch.side s c)))
  | .act fr ch (.update u), db =>
    if E.backend = .mysql ∧ u.table ∈ fr.tables then .error (.tableInUse u.table)
    else .ok (writes E.backend fr u.table (u.ops ch db), db)

/-- Works until nothing is left to do. The first argument bounds the number of items: a trigger recursion that does not end
runs into the backend's recursion limit. All theorems hold for every bound. -/
def Engine.drain (E : Engine) : Nat → List Item → Db → Except DbErr Db
  | _, [], db => .ok db
  | 0, _ :: _, _ => .error .depth
  | n + 1, it :: W, db =>
    match E.step it db with
    | .ok (new, db') => E.drain n (new ++ W) db'
    | .error e => .error e

/-- A statement issued by a user session (ORM or raw SQL). -/
inductive Stmt where
  /-- insert rows into a table -/
  | insert (t : TableName) (rs : List Row)
  /-- update the rows selected by `w`; `σ` may use a random number -/
  | update (t : TableName) (w : Row → Bool) (σ : Int → Row → Row)
  | delete (t : TableName) (w : Row → Bool)

def Stmt.table : Stmt → TableName
  | .insert t _ => t
  | .update t _ _ => t
  | .delete t _ => t

/-- The rows a statement writes, in some order (SQL leaves it open). An UPDATE fixes its rows at the start. A DELETE removes
as many rows as satisfied its WHERE at the start; each time the WHERE is looked at anew, which makes a difference only if
the triggers of one deleted row change whether another row of the same table satisfies it. -/
def Stmt.ops (s : Stmt) (db : Db) : List RowOp :=
  match s with
  | .insert _ rs => rs.map .ins
  | .update t w σ => (targetsOf (db.rows t) w).map fun i => .upd i σ
  | .delete t w => (targetsOf (db.rows t) w).map fun _ => .del w

/-- The work a statement starts with. -/
def Engine.start (E : Engine) (s : Stmt) (db : Db) : List Item := writes E.backend .top s.table (s.ops db)

/-- Executes a statement; an error undoes it as a whole. -/
def Engine.exec (E : Engine) (fuel : Nat) (s : Stmt) (db : Db) : Except DbErr Db := E.drain fuel (E.start s db) db

/-- Executes a history of statements. A failing statement is rolled back and the session goes on. -/
def Engine.run (E : Engine) (fuel : Nat) : List Stmt → Db → Db
  | [], db => db
  | s :: ss, db =>
    match E.exec fuel s db with
    | .ok db' => E.run fuel ss db'
    | .error _ => E.run fuel ss db

end Denorm
