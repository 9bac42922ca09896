import Verif.Sql.Db
/-!
# delete() of instances and querysets
What Django (`django/db/models/deletion.py`, class `Collector`) does when a program deletes objects: it finds out, level by level, what refers
to them, and then sends statements. `/repo` sees those statements only through its triggers (`after delete` in `denorm/dependencies.py:274-400` and
`denorm/denorms.py:355-368, 436-439`); it connects nothing to Django's `pre_delete` and `post_delete`.
-/
namespace Denorm

/-- `on_delete=` of a ForeignKey. -/
inductive OnDelete where
  | cascade
  | setNull
  | protect
  | doNothing
deriving DecidableEq, Repr

/-- A ForeignKey, a ForeignKey of an intermediate table, or (with `ct`: the column and the number of the content type) a GenericRelation. -/
structure ModelRef where
  table : TableName
  col : Col
  target : TableName
  on : OnDelete
  ct : Option (Col × Nat) := none
deriving DecidableEq, Repr

/-- What the project declares. `signals`: some handler of `pre_delete` or `post_delete` is connected for the model of this table. `order`: the
order in which `Collector.sort` puts the models. -/
structure Collector where
  pk : TableName → Col
  refs : List ModelRef
  /-- multi-table inheritance: the table of a child and that of its parent -/
  parents : List (TableName × TableName) := []
  signals : TableName → Bool := fun _ => false
  order : List TableName → List TableName := id

/-- `related_objects`: row `r` refers to one of the objects with these keys. -/
def ModelRef.points (f : ModelRef) (ks : List Val) (r : Row) : Bool :=
  ks.any (fun k => Val.sqlEq (r f.col) k) && match f.ct with
    | none => true
    | some (c, n) => Val.sqlEq (r c) (.int n)

/-- `can_fast_delete`: nobody listens, and nothing further depends on the rows of this table. -/
def Collector.canFast (P : Collector) (t : TableName) : Bool :=
  !P.signals t && P.refs.all (fun g => decide (g.target ≠ t) || decide (g.on = .doNothing)) && P.parents.all fun p => decide (p.1 ≠ t)

/-- The state of the collector: the objects to delete, the columns to clear (`field_updates`), and the rows to delete by their reference
(`fast_deletes`). -/
structure Gathered where
  instances : List (TableName × Val) := []
  updates : List (ModelRef × List Val) := []
  fast : List (ModelRef × List Val) := []

inductive CollectErr where
  | protectedError
  | depth
deriving DecidableEq, Repr

/-- The loop of `collect` over the relations that lead to the model: what to do with the rows that refer to the objects `ks`. The result
lists the objects that are to be collected next. -/
def Collector.relate (P : Collector) (db : Db) (ks : List Val) : List ModelRef → Gathered → Except CollectErr (List (TableName × List Val) × Gathered)
  | [], G => .ok ([], G)
  | f :: fs, G =>
    match f.on with
    | .doNothing => P.relate db ks fs G
    | .protect => if (db.rows f.table).any (f.points ks) then .error .protectedError else P.relate db ks fs G
    | .setNull => P.relate db ks fs { G with updates := G.updates ++ [(f, ((db.rows f.table).filter (f.points ks)).map fun r => r (P.pk f.table))] }
    | .cascade =>
      if P.canFast f.table then P.relate db ks fs { G with fast := G.fast ++ [(f, ks)] }
      else
        match P.relate db ks fs G with
        | .ok (T, G') => .ok ((f.table, ((db.rows f.table).filter (f.points ks)).map fun r => r (P.pk f.table)) :: T, G')
        | .error e => .error e

/-- `collect`, with the objects that are still to be looked at as a list. The keys of a child are those of its parent. Simplified: Django finds the
relations of the parent through the child; here the parent is collected like any other object. -/
def Collector.collect (P : Collector) (db : Db) : Nat → List (TableName × List Val) → Gathered → Except CollectErr Gathered
  | _, [], G => .ok G
  | 0, _ :: _, _ => .error .depth
  | n + 1, (t, ks) :: T, G =>
    let new := ks.filter fun k => decide ((t, k) ∉ G.instances)
    if new = [] then P.collect db n T G
    else
      match P.relate db new (P.refs.filter fun f => decide (f.target = t)) { G with instances := G.instances ++ new.map fun k => (t, k) } with
      | .ok (S, G') => P.collect db n (((P.parents.filter fun p => decide (p.1 = t)).map fun p => (p.2, new)) ++ S ++ T) G'
      | .error e => .error e

/-- The statements of `Collector.delete`: fast deletions, then `UPDATE .. SET fk = NULL`, then the objects, model by model. (Primary keys are
never NULL, so that `IN` can be written as membership.) -/
def Gathered.stmts (P : Collector) (G : Gathered) : List Stmt :=
  (G.fast.map fun p => Stmt.delete p.1.table (p.1.points p.2)) ++
  (G.updates.map fun p => Stmt.update p.1.table (fun r => decide (r (P.pk p.1.table) ∈ p.2)) fun _ r => r.set p.1.col .null) ++
  (P.order (G.instances.map (·.1))).map fun t => Stmt.delete t fun r => decide ((t, r (P.pk t)) ∈ G.instances)

/-- Statements in one transaction: all or nothing. -/
def Engine.runAll (E : Engine) (fuel : Nat) : List Stmt → Db → Except DbErr Db
  | [], db => .ok db
  | s :: ss, db =>
    match E.exec fuel s db with
    | .ok db' => E.runAll fuel ss db'
    | .error e => .error e

inductive DeleteErr where
  | collect (e : CollectErr)
  | db (e : DbErr)

/-- `instance.delete()` or `queryset.delete()`: `collector.collect(objs); collector.delete()`, the latter in `transaction.atomic`. Simplified: a
queryset that can be deleted with a single statement is deleted by keys. -/
def Engine.deleteObjects (E : Engine) (P : Collector) (fuel : Nat) (t : TableName) (keys : List Val) (db : Db) : Except DeleteErr Db :=
  match P.collect db fuel [(t, keys)] {} with
  | .error e => .error (.collect e)
  | .ok G =>
    match E.runAll fuel (G.stmts P) db with
    | .ok db' => .ok db'
    | .error e => .error (.db e)

/-- A program that deletes objects again and again; a call that raises changes nothing. -/
def Engine.deletions (E : Engine) (P : Collector) (fuel : Nat) : List (TableName × List Val) → Db → Db
  | [], db => db
  | d :: ds, db =>
    match E.deleteObjects P fuel d.1 d.2 db with
    | .ok db' => E.deletions P fuel ds db'
    | .error _ => E.deletions P fuel ds db

end Denorm
