import Verif.Sql.Db
/-!
# What a column makes of the value that is stored in it

`Sql/Db` stores values as they are. A real column has a type and constraints: a number may be rounded, and a value may be refused, which makes the whole statement
fail. This is the engine of `Sql/Db` once more, with a function that tells what becomes of each row that is written.
-/
namespace Denorm

/-- What the column types and constraints of a table make of a row that is to be stored; `none`: it is refused. -/
abbrev Store := TableName → Row → Option Row

/-- What can go wrong inside a statement. -/
inductive StoreErr where
  | db (e : DbErr)
  /-- a constraint is violated or a number is out of range; the database rolls the statement back -/
  | refused
deriving DecidableEq, Repr

/-- `applyOp`, where the row that is written goes through its columns' types. NEW in the triggers is the row as stored. -/
def applyOpStored (E : Engine) (κ : Store) (t : TableName) (op : RowOp) (db : Db) : Option (Db × List Change) :=
  match op with
  | .ins r => (κ t r).map fun r' => (db.setRows t (db.rows t ++ [r']), [⟨t, .insert, r', r'⟩])
  | .upd i σ =>
    match (db.rows t)[i]? with
    | none => some (db, [])
    | some old => (κ t (σ (E.rand db.draws) old)).map fun new =>
      ({ db.setRows t ((db.rows t).set i new) with draws := db.draws + 1 }, [⟨t, .update, old, new⟩])
  | .del w =>
    match (db.rows t).find? w with
    | none => some (db, [])
    | some old => some (db.setRows t ((db.rows t).eraseP w), [⟨t, .delete, old, old⟩])

/-- `applyOps`, stored. -/
def applyOpsStored (E : Engine) (κ : Store) (t : TableName) : List RowOp → Db → Option (Db × List Change)
  | [], db => some (db, [])
  | op :: ops, db =>
    match applyOpStored E κ t op db with
    | none => none
    | some p => (applyOpsStored E κ t ops p.1).map fun q => (q.1, p.2 ++ q.2)

/-- `Engine.step`, stored. -/
def Engine.stepStored (E : Engine) (κ : Store) : Item → Db → Except StoreErr (List Item × Db)
  | .write fr t ops, db =>
    match applyOpsStored E κ t ops db with
    | none => .error .refused
    | some p => .ok (p.2.flatMap (E.fired fr), p.1)
  | .act _ ch (.markValues ct s c _), db => .ok ([], db.addMarks [⟨ct, ch.side s c⟩])
  | .act _ ch (.markSelect ct sel t k s c _), db => .ok ([], db.addMarks (selectMarks ct sel (db.rows t) k (ch.side s c)))
  | .act fr ch (.update u), db =>
    if E.backend = .mysql ∧ u.table ∈ fr.tables then .error (.db (.tableInUse u.table))
    else .ok (writes E.backend fr u.table (u.ops ch db), db)

/-- `Engine.drain`, stored. -/
def Engine.drainStored (E : Engine) (κ : Store) : Nat → List Item → Db → Except StoreErr Db
  | _, [], db => .ok db
  | 0, _ :: _, _ => .error (.db .depth)
  | n + 1, it :: W, db =>
    match E.stepStored κ it db with
    | .ok (new, db') => E.drainStored κ n (new ++ W) db'
    | .error e => .error e

/-- `Engine.exec`, stored. -/
def Engine.execStored (E : Engine) (κ : Store) (fuel : Nat) (s : Stmt) (db : Db) : Except StoreErr Db :=
  E.drainStored κ fuel (E.start s db) db

/-- `Engine.run`, stored. -/
def Engine.runStored (E : Engine) (κ : Store) (fuel : Nat) : List Stmt → Db → Db
  | [], db => db
  | s :: ss, db =>
    match E.execStored κ fuel s db with
    | .ok db' => E.runStored κ fuel ss db'
    | .error _ => E.runStored κ fuel ss db

/-- Rounds `n` to the next multiple of `u`, halves away from zero. -/
def roundTo (u : Nat) (n : Int) : Int := if 0 ≤ n then (2 * n + u) / (2 * u) * u else -((2 * -n + u) / (2 * u) * u)

/-- The largest number a PositiveIntegerField's column holds: `integer CHECK (..)` on PostgreSQL, `integer UNSIGNED` on MySQL; sqlite has no limit worth mentioning. -/
def Backend.intLimit : Backend → Option Int
  | .sqlite => none
  | .postgresql => some 2147483647
  | .mysql => some 4294967295

/-- What a PositiveIntegerField's column (NOT NULL, at least zero; fields.py:103, 118-119) makes of a value. Numbers are given in units of `1/u`, so that decimals with a
fixed number of places can be stored beside it: with `u = 100` the number `150` means 1.50. PostgreSQL and MySQL round when they store a decimal in an integer column;
sqlite's INTEGER affinity keeps it. Simplification: a text is taken as it is; sqlite's decimals are exact here, in truth they are binary floating point numbers. -/
def Backend.storePositive (b : Backend) (u : Nat) : Val → Option Val
  | .null => none
  | .text s => some (.text s)
  | .int n =>
    let m := if b = .sqlite then n else roundTo u n
    if m < 0 then none
    else match b.intLimit with
      | none => some (.int m)
      | some l => if l * u < m then none else some (.int m)

/-- The columns of a database with one PositiveIntegerField; the others take everything as it is. -/
def positiveColumn (b : Backend) (u : Nat) (t : TableName) (c : Col) : Store := fun t' r =>
  if t' = t then (b.storePositive u (r c)).map fun v => r.set c v else some r

end Denorm
