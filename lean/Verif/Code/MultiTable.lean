import Verif.Code.Calls
/-!
# save() and flush() of instances of multi-table children

An instance of a child model (`class Restaurant(Place)`) lives in two tables. Django's `save_base` first saves the parent's part (`_save_parents`), copies its key into the link, the
child's primary key, and then saves the child's own part. django-denorm has no code of its own for this: what it does is in `pre_save` of the fields of either table (fields.py:56-80,
159-178, 282-285) and in the triggers of both tables.

Simplifications: one level (the parent is no child itself, one parent); the attributes of an instance are given by table, `pm` for those of the parent and `cm` for those of the child, and
what a callback reads of the other table is read from the database (the parent's row has been written when the child's callbacks run). `save(update_fields=..)` of a child and fixtures
(`raw=True`: only the child's own table) are two separate calls already.
-/
namespace Denorm

/-- "Make sure the link fields are synced between parent and self" (Django's `_save_parents`): an unset key of the parent is taken from the link. -/
def syncLink (p c : OrmModel) (pm cm : Row) : Row := if pm p.model.pk = .null then pm.set p.model.pk (cm c.model.pk) else pm

/-- `_save_parents`: the parent's part is saved like an instance of the parent. `k` is the key that the database assigns. Also returned: the row was inserted. -/
def App.saveParent (A : App) (p : OrmModel) (pm : Row) (k : Val) (db : Db) : Except OrmErr (Db × Row × Bool) :=
  if pm p.model.pk = .null then
    match A.create p pm k db with
    | .ok (db1, pm1) => .ok (db1, pm1, true)
    | .error e => .error e
  else
    match A.save p pm db with
    | .ok (db1, pm1) => .ok (db1, pm1, !(db.rows p.model.table).any (isRowOf p.model (pm p.model.pk)))
    | .error e => .error e

/-- `save_base` of a child. `force`: `save(force_insert=True)`, as in `objects.create(..)`: the child's row is inserted at once, with `add=True` for every `pre_save` (fields.py:166-168).
`newer`: `_save_table(force_insert=parent_inserted)` (Django after 2.0): a new parent row makes Django do the same without `force`. Otherwise (in Django 1.8 to 2.0, those that tox.ini tests,
always) the child's part, which has a key by then, is saved like any instance with a key. `_save_parents` does not pass `force_insert` on. -/
def App.saveChild (A : App) (newer force : Bool) (p c : OrmModel) (pm cm : Row) (k : Val) (db : Db) : Except OrmErr (Db × Row × Row) :=
  match A.saveParent p (syncLink p c pm cm) k db with
  | .error e => .error e
  | .ok (db1, pm1, inserted) =>
    -- `setattr(self, field.attname, self._get_pk_val(parent._meta))`
    let cm0 := cm.set c.model.pk (pm1 p.model.pk)
    match if force || newer && inserted then A.create c cm0 (pm1 p.model.pk) db1 else A.save c cm0 db1 with
    | .ok (db2, cm1) => .ok (db2, pm1, cm1)
    | .error e => .error e

/-- `dirty_instance.content_object.save()` (denorms.py:629-630) where the models `parent` maps to something are children: `content_object` is read from both tables (an INNER JOIN), so a
child's row without its parent's is no object; then both tables are saved. -/
def App.saveObjectTables (A : App) (newer : Bool) (parent : OrmModel → Option OrmModel) (m : Mark) (db : Db) : Except OrmErr Db :=
  match A.contentObject db m with
  | .error e => .error e
  | .ok none => .ok db
  | .ok (some (om, r)) =>
    match parent om with
    | none =>
      match A.save om r db with
      | .ok (db', _) => .ok db'
      | .error e => .error e
    | some p =>
      match (db.rows p.model.table).find? (isRowOf p.model (r om.model.pk)) with
      | none => .ok db
      | some pr =>
        match A.saveChild newer false p om pr r .null db with
        | .ok (db', _) => .ok db'
        | .error e => .error e

/-- The loops of flush() (denorms.py:625-635) with these saves. -/
def App.flushListTables (A : App) (newer : Bool) (parent : OrmModel → Option OrmModel) : List Mark → Db → Except OrmErr Db
  | [], db => .ok db
  | m :: ms, db =>
    match A.saveObjectTables newer parent m db with
    | .ok db' => A.flushListTables newer parent ms (db'.dropMarks m)
    | .error e => .error e

/-- `flush()` (denorms.py:593-635) in a project with multi-table children. -/
def App.flushTables (A : App) (newer : Bool) (parent : OrmModel → Option OrmModel) : Nat → Db → Except OrmErr (Option Db)
  | n, db =>
    if db.dirty = [] then .ok (some db)
    else match n with
      | 0 => .ok none
      | n + 1 =>
        match A.flushListTables newer parent (A.snapshot db) db with
        | .ok db' => A.flushTables newer parent n db'
        | .error e => .error e

end Denorm
