import Verif.Code.M2M
/-!
# `@cached` attributes (fields.py:293-328)

A `@cached` attribute is described by a `Callback` `cb`: the model, the column that holds the cache key, and the function with what it
reads. In memory the attribute holds the function's value, in the database its column holds the key.

Not modelled: the timeout of cache entries other than as `Cache.evict` (an entry may vanish at any time), and several processes writing
the same entry at the same moment. A function that reads the attribute itself is not considered.
-/
namespace Denorm

/-- A Django cache. -/
abbrev Cache := String → Option Val

/-- `cache.set(n, v)` -/
def Cache.set (c : Cache) (n : String) (v : Val) : Cache := fun n' => if n' = n then some v else c n'

/-- The entry expires or is thrown out. -/
def Cache.evict (c : Cache) (n : String) : Cache := fun n' => if n' = n then none else c n'

/-- `'%s' % value` -/
def Val.format : Val → String
  | .null => "None"
  | .int i => toString i
  | .text s => s

/-- `key = 'CachedField_%s' % value` (fields.py:298). The name contains neither the model nor the field. -/
def cacheName (value : Val) : String := "CachedField_" ++ value.format

/-- `CacheWrapper.__set__(obj, value)` (fields.py:297-303): what the attribute holds afterwards, and the cache. -/
def setCached (cb : Callback) (db : Db) (obj : Row) (value : Val) (cache : Cache) : Val × Cache :=
  match cache (cacheName value) with
  | some v => if v.truthy then (v, cache) else (cb.value db obj, cache.set (cacheName value) (cb.value db obj))
  | none => (cb.value db obj, cache.set (cacheName value) (cb.value db obj))

/-- An instance is loaded: `Model.__init__` assigns every attribute the value of its column. Simplification: attributes are assigned in
the order of the fields, so at this moment those declared after the `@cached` one have no value yet; Django fetches them from the row
when the function reads them, hence the function sees the row. -/
def loadCached (cb : Callback) (db : Db) (r : Row) (cache : Cache) : Val × Cache := setCached cb db r (r cb.field) cache

/-- An instance is constructed, `Model(..)`: the column's default is 0 (fields.py:257). -/
def constructCached (cb : Callback) (db : Db) (obj : Row) (cache : Cache) : Val × Cache := setCached cb db obj (.int 0) cache

/-- `pre_save` of every field in order, like `preSaveAll`; `pre_save` of the `@cached` field (fields.py:282-285) draws `κ` and assigns
it to the attribute, which evaluates the function. `attr` is what the attribute holds. The cache keeps what was written to it when a
later `pre_save` raises. -/
def preSaveCached (A : App) (cb : Callback) (κ : Int) (m : Model) (db : Db) (add : Bool) :
    List SaveField → Row → Val → Cache → Except OrmErr (Row × Val) × Cache
  | [], mem, attr, cache => (.ok (mem, attr), cache)
  | f :: fs, mem, attr, cache =>
    if f.col = cb.field then
      preSaveCached A cb κ m db add fs (mem.set cb.field (.int κ)) (setCached cb db mem (.int κ) cache).1 (setCached cb db mem (.int κ) cache).2
    else
      match f.preSave A m db add mem with
      | .ok v => preSaveCached A cb κ m db add fs (mem.set f.col v) attr cache
      | .error e => (.error e, cache)

/-- `instance.save()` of an instance with a primary key (see `App.save`). `κ1` is drawn for the UPDATE and `κ2` for the INSERT if the
UPDATE matches no row. The cache is not rolled back when the statement fails. -/
def App.saveCached (A : App) (cb : Callback) (κ1 κ2 : Int) (om : OrmModel) (mem : Row) (attr : Val) (db : Db) (cache : Cache) :
    Except OrmErr (Db × Row × Val) × Cache :=
  match preSaveCached A cb κ1 om.model db false om.saved mem attr cache with
  | (.error e, c1) => (.error e, c1)
  | (.ok (mem1, a1), c1) =>
    if (db.rows om.model.table).any (isRowOf om.model (mem om.model.pk)) then
      match A.exec (saveUpdate om mem1) db with
      | .ok db' => (.ok (db', mem1, a1), c1)
      | .error e => (.error e, c1)
    else
      match preSaveCached A cb κ2 om.model db true om.saved mem1 a1 c1 with
      | (.error e, c2) => (.error e, c2)
      | (.ok (mem2, a2), c2) =>
        match A.exec (.insert om.model.table [mem2]) db with
        | .ok db' => (.ok (db', mem2, a2), c2)
        | .error e => (.error e, c2)

/-- `instance.save()` of a new instance without a primary key (see `App.create`); the database chooses the key `k`. -/
def App.createCached (A : App) (cb : Callback) (κ : Int) (om : OrmModel) (mem : Row) (attr : Val) (k : Val) (db : Db) (cache : Cache) :
    Except OrmErr (Db × Row × Val) × Cache :=
  match preSaveCached A cb κ om.model db true om.saved mem attr cache with
  | (.error e, c1) => (.error e, c1)
  | (.ok (mem1, a1), c1) =>
    match A.exec (.insert om.model.table [mem1.set om.model.pk k]) db with
    | .ok db' => (.ok (db', mem1.set om.model.pk k, a1), c1)
    | .error e => (.error e, c1)

end Denorm
