import Verif.Code.Orm
/-!
# Denormalized ManyToManyFields (denorms.py:18-63)

save() with its signals. The handlers are connected once per model (Django drops a second connection of the same handler and sender),
however many denormalized fields the model has (fields.py:51-53).

Not modelled: the branch for `through_model` (denorms.py:32-45), an attribute that no supported Django has; ManyToManyFields with a
hand-written `through` model, whose `set` raises; the surrogate key of the link table.
-/
namespace Denorm

/-- A denormalized ManyToManyField: the relation and the keys of the objects its callback returns. -/
structure M2MField where
  rel : M2M
  fn : Db → Row → List Val

/-- Python's truth value of a primary key. -/
def Val.truthy : Val → Bool
  | .null => false
  | .int i => i != 0
  | .text s => s != ""

/-- A row of the link table. -/
def linkRow (rel : M2M) (k v : Val) : Row := fun c => if c = rel.colName then k else if c = rel.revName then v else .null

/-- The keys linked with the instance `k`. -/
def linked (rel : M2M) (k : Val) (db : Db) : List Val :=
  ((db.rows rel.through).filter fun l => Val.sqlEq (l rel.colName) k).map fun l => l rel.revName

/-- The loop in Django's `manager.set(objs)`: an object that is linked already is taken off the set `old_ids`, any other is to be added.
Returns what is left of `old_ids` and the objects to add. -/
def setPlan : List Val → List Val → List Val × List Val
  | old, [] => (old, [])
  | old, v :: vs =>
    if v ∈ old then setPlan (old.filter fun x => x ≠ v) vs
    else ((setPlan old vs).1, v :: (setPlan old vs).2)

/-- `manager.add(*objs)`: inserts links to the objects (as a set) that are not linked yet. -/
def App.m2mAdd (A : App) (rel : M2M) (k : Val) (objs : List Val) (db : Db) : Except OrmErr Db :=
  A.exec (.insert rel.through ((dedup (objs.filter fun v => v ∉ linked rel k db)).map (linkRow rel k))) db

/-- `getattr(instance, m2m.attname).set(values)` (denorms.py:49): `remove` what is left over, `add` what is new. -/
def App.m2mSet (A : App) (rel : M2M) (k : Val) (values : List Val) (db : Db) : Except OrmErr Db :=
  match A.exec (.delete rel.through fun l => Val.sqlEq (l rel.colName) k && decide (l rel.revName ∈ (setPlan (linked rel k db) values).1)) db with
  | .ok db1 => A.m2mAdd rel k (setPlan (linked rel k db) values).2 db1
  | .error e => .error e

/-- The body of the loop in `many_to_many_pre_save`, for all denormalized fields among `_meta.local_many_to_many`. -/
def App.m2mSetAll (A : App) (om : OrmModel) (mem : Row) : List M2MField → Db → Except OrmErr Db
  | [], db => .ok db
  | f :: fs, db =>
    match A.m2mSet f.rel (mem om.model.pk) (f.fn db mem) db with
    | .ok db' => A.m2mSetAll om mem fs db'
    | .error e => .error e

/-- `many_to_many_pre_save` (denorms.py:18-52). -/
def App.m2mPreSave (A : App) (om : OrmModel) (fs : List M2MField) (mem : Row) (db : Db) : Except OrmErr Db :=
  if (mem om.model.pk).truthy then A.m2mSetAll om mem fs db else .ok db

/-- save() up to the post_save signal; also tells whether a row was created. -/
def App.saveOnce (A : App) (om : OrmModel) (fs : List M2MField) (mem : Row) (db : Db) : Except OrmErr (Db × Row × Bool) :=
  match A.m2mPreSave om fs mem db with
  | .error e => .error e
  | .ok db1 =>
    match A.save om mem db1 with
    | .error e => .error e
    | .ok (db2, mem2) => .ok (db2, mem2, !(db1.rows om.model.table).any (isRowOf om.model (mem om.model.pk)))

/-- save() with `many_to_many_post_save` (denorms.py:55-63): a created instance of a model with denormalized ManyToManyFields is saved
again, which runs the same handlers. `none`: more than `n` nested saves. -/
def App.saveModel (A : App) (om : OrmModel) (fs : List M2MField) : Nat → Row → Db → Except OrmErr (Option (Db × Row))
  | 0, _, _ => .ok none
  | n + 1, mem, db =>
    match A.saveOnce om fs mem db with
    | .error e => .error e
    | .ok (db', mem', created) =>
      if created && !fs.isEmpty then A.saveModel om fs n mem' db' else .ok (some (db', mem'))

/-- The same for a new instance without a key. -/
def App.createModel (A : App) (om : OrmModel) (fs : List M2MField) (n : Nat) (mem : Row) (k : Val) (db : Db) :
    Except OrmErr (Option (Db × Row)) :=
  match A.create om mem k db with
  | .error e => .error e
  | .ok (db', mem') => if !fs.isEmpty then A.saveModel om fs n mem' db' else .ok (some (db', mem'))

end Denorm
