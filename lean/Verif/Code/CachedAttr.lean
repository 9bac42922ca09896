import Verif.Code.Cached
/-!
# What Django does with the attribute of a `@cached` field (fields.py:297-321)

`CacheWrapper` has a `__set__` and no `__get__`: whoever reads the attribute gets what the function returned, not the key that the column holds. Django's `refresh_from_db`, `full_clean` and
serializers read the attributes of fields and take what they get for the column's value; `only()` and `defer()` leave the attribute unset. Django 1.10 and later.
-/
namespace Denorm

/-- `setattr(self, field.attname, getattr(db_instance, field.attname))` for every concrete field in the order of declaration (`Model.refresh_from_db`). `r` is the row from which `db_instance` was made, `v`
what the `@cached` attribute of `db_instance` holds: assigning it calls `CacheWrapper.__set__` (fields.py:301-307) with `v` in the place of a key, and with the instance as it is at this moment.
Simplification: related objects that the instance holds are not modelled (C86), the function reads the database. -/
def refreshFields (cb : Callback) (db : Db) (r : Row) (v : Val) : List Col → Row → Val → Cache → Row × Val × Cache
  | [], mem, attr, cache => (mem, attr, cache)
  | c :: cs, mem, attr, cache =>
    if c = cb.field then refreshFields cb db r v cs mem (setCached cb db mem v cache).1 (setCached cb db mem v cache).2
    else refreshFields cb db r v cs (mem.set c (r c)) attr cache

/-- `instance.refresh_from_db()`: `none` if there is no such row any more (DoesNotExist). `cols` are the columns of the concrete fields in their order. -/
def refreshCached (cb : Callback) (cols : List Col) (db : Db) (mem : Row) (attr : Val) (cache : Cache) : Option (Row × Val × Cache) :=
  match (db.rows cb.model.table).find? (fun r => Val.sqlEq (r cb.model.pk) (mem cb.model.pk)) with
  | none => none
  | some r => some (refreshFields cb db r (loadCached cb db r cache).1 cols mem attr (loadCached cb db r cache).2)

/-- What reading an attribute gives. -/
inductive PyRead where
  | value (v : Val)
  /-- the object that the class has under this name -/
  | descriptor
  | attributeError
deriving DecidableEq, Repr

/-- What the class has under the attribute's name: whether its type has `__get__` (and what that would return) and `__set__`. -/
structure ClassAttr where
  get : Option Val
  set : Bool

/-- Python's `object.__getattribute__`: a data descriptor's `__get__`, then the instance's `__dict__`, then a `__get__`, then the object itself. -/
def pyGetattr (cls : Option ClassAttr) (dict : Option Val) : PyRead :=
  match cls with
  | none => match dict with
    | some v => .value v
    | none => .attributeError
  | some a =>
    match a.get, a.set, dict with
    | some g, true, _ => .value g
    | _, _, some v => .value v
    | some g, false, none => .value g
    | none, _, none => .descriptor

/-- Django's `DeferredAttribute`, which every concrete field puts into the class: `__get__` fetches the column from the row, there is no `__set__`. -/
def deferredAttribute (stored : Val) : ClassAttr := ⟨some stored, false⟩

/-- `setattr(cls, self.name, CacheWrapper(self))` (fields.py:321): there is no `__get__` (fields.py:297-307). -/
def cacheWrapper : ClassAttr := ⟨none, true⟩

/-- `Model.objects.only(*loaded)`: reading the attribute of the plain column `c`. -/
def readPlain (loaded : List Col) (c : Col) (r : Row) : PyRead := pyGetattr (some (deferredAttribute (r c))) (if c ∈ loaded then some (r c) else none)

/-- `Model.objects.only(*loaded)`: reading the `@cached` attribute. Columns that are not loaded are not assigned. -/
def readCached (cb : Callback) (loaded : List Col) (db : Db) (r : Row) (cache : Cache) : PyRead :=
  pyGetattr (some cacheWrapper) (if cb.field ∈ loaded then some (loadCached cb db r cache).1 else none)

/-- `BigIntegerField.to_python(value)`: `None`, numbers, and what Python's `int` makes of a text; `none` stands for a ValidationError. -/
def bigintToPython (int : String → Option Int) : Val → Option Val
  | .null => some .null
  | .int i => some (.int i)
  | .text s => (int s).map .int

/-- `instance.full_clean()` of an instance whose `@cached` attribute holds `attr`, for this field: `setattr(self, f.attname, f.clean(getattr(self, f.attname), self))`; `none` if it raises. -/
def cleanCached (int : String → Option Int) (cb : Callback) (db : Db) (mem : Row) (attr : Val) (cache : Cache) : Option (Val × Cache) :=
  (bigintToPython int attr).map fun v => setCached cb db mem v cache

/-- What `dumpdata` writes for the field: `field.value_from_object(obj)`, which is `getattr(obj, attname)`. -/
def dumpCached (attr : Val) : Val := attr

/-- `loaddata` reads the field: `field.to_python(value)`, assigned when the instance is constructed, and then stored as it is, without `pre_save` (`raw=True`). The attribute, the key that is stored and
the cache; `none` if a DeserializationError is raised. -/
def loadFixtureCached (int : String → Option Int) (cb : Callback) (db : Db) (obj : Row) (dumped : Val) (cache : Cache) : Option (Val × Val × Cache) :=
  (bigintToPython int dumped).map fun v => ((setCached cb db obj v cache).1, (setCached cb db obj v cache).1, (setCached cb db obj v cache).2)

end Denorm
