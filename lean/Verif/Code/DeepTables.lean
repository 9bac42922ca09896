import Verif.Code.MultiTable
/-!
# Multi-table inheritance over any number of levels

`class Place`, `class Restaurant(Place)`, `class Pizzeria(Restaurant)`: an instance of the last lives in three tables. `Code/MultiTable` is about two tables; here the levels are a list, from the
root to the model of the instance. As there, django-denorm's part is in `pre_save` of the fields of each table (fields.py:56-80, 159-178, 282-285), in the triggers of the tables, and in flush()
(denorms.py:593-635). Simplification: one parent each; otherwise as in `Code/MultiTable`.
-/
namespace Denorm

/-- A level of an instance: the model, and the attributes that belong to its table. -/
abbrev InTable := OrmModel × Row

/-- Django's `_save_parents`, on its way from the instance's model to the root: an unset key of a parent is taken from the link below. -/
def syncLevels : List InTable → List InTable
  | [] => []
  | l :: ls =>
    match syncLevels ls with
    | [] => [l]
    | c :: cs => (l.1, syncLink l.1 c.1 l.2 c.2) :: c :: cs

/-- `_save_table` for one level. `insert`: `force_insert`. `k` is the key that the database assigns. Also returned: the row was inserted. -/
def App.saveLevel (A : App) (insert : Bool) (k : Val) (l : InTable) (db : Db) : Except OrmErr (Db × Row × Bool) :=
  if l.2 l.1.model.pk = .null then
    match A.create l.1 l.2 k db with
    | .ok (db1, mem) => .ok (db1, mem, true)
    | .error e => .error e
  else if insert then
    match A.create l.1 l.2 (l.2 l.1.model.pk) db with
    | .ok (db1, mem) => .ok (db1, mem, true)
    | .error e => .error e
  else
    match A.save l.1 l.2 db with
    | .ok (db1, mem) => .ok (db1, mem, !(db.rows l.1.model.table).any (isRowOf l.1.model (l.2 l.1.model.pk)))
    | .error e => .error e

/-- What a level is saved with: below the root (`above` is the key of the level above, and whether its row was inserted) the key comes from the level above. -/
def linkLevel (above : Option (Val × Bool)) (l : InTable) : InTable :=
  match above with
  | none => l
  | some (key, _) => (l.1, l.2.set l.1.model.pk key)

/-- `force_insert` of a level: `newer` Djangos insert below a level that was inserted; `force` (`objects.create(..)`) is about the last level only. -/
def insertLevel (newer force : Bool) (above : Option (Val × Bool)) (last : Bool) : Bool :=
  force && last || newer && match above with
    | none => false
    | some (_, inserted) => inserted

/-- `save_base` from the root down. -/
def App.saveLevels (A : App) (newer force : Bool) (k : Val) : Option (Val × Bool) → List InTable → Db → Except OrmErr Db
  | _, [], db => .ok db
  | above, l :: ls, db =>
    match A.saveLevel (insertLevel newer force above ls.isEmpty) k (linkLevel above l) db with
    | .ok (db1, mem, inserted) => A.saveLevels newer force k (some (mem l.1.model.pk, inserted)) ls db1
    | .error e => .error e

/-- `save()` of an instance with these levels. -/
def App.saveDeep (A : App) (newer force : Bool) (k : Val) (ls : List InTable) (db : Db) : Except OrmErr Db :=
  A.saveLevels newer force k none (syncLevels ls) db

/-- The parts of an instance in the tables of its ancestors: the INNER JOIN. -/
def readLevels (db : Db) (key : Val) : List OrmModel → Option (List InTable)
  | [] => some []
  | p :: ps =>
    match (db.rows p.model.table).find? (isRowOf p.model key), readLevels db key ps with
    | some r, some ls => some ((p, r) :: ls)
    | _, _ => none

/-- `dirty_instance.content_object.save()` (denorms.py:629-630); `above` lists the ancestors of a model, from the root. -/
def App.saveObjectDeep (A : App) (newer : Bool) (above : OrmModel → List OrmModel) (m : Mark) (db : Db) : Except OrmErr Db :=
  match A.contentObject db m with
  | .error e => .error e
  | .ok none => .ok db
  | .ok (some (om, r)) =>
    match readLevels db (r om.model.pk) (above om) with
    | none => .ok db
    | some ls => A.saveDeep newer false .null (ls ++ [(om, r)]) db

/-- The loops of flush() (denorms.py:625-635) with these saves. -/
def App.flushListDeep (A : App) (newer : Bool) (above : OrmModel → List OrmModel) : List Mark → Db → Except OrmErr Db
  | [], db => .ok db
  | m :: ms, db =>
    match A.saveObjectDeep newer above m db with
    | .ok db' => A.flushListDeep newer above ms (db'.dropMarks m)
    | .error e => .error e

/-- `flush()` (denorms.py:593-635). -/
def App.flushDeep (A : App) (newer : Bool) (above : OrmModel → List OrmModel) : Nat → Db → Except OrmErr (Option Db)
  | n, db =>
    if db.dirty = [] then .ok (some db)
    else match n with
      | 0 => .ok none
      | n + 1 =>
        match A.flushListDeep newer above (A.snapshot db) db with
        | .ok db' => A.flushDeep newer above n db'
        | .error e => .error e

end Denorm
