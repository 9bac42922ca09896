import Verif.Code.Cached
import Verif.Spec.CacheKey
import Verif.Spec.Save
/-!
# What can happen to instances with a `@cached` attribute
-/
namespace Denorm

/-- The CacheKeyField behind the attribute. -/
def Callback.key (cb : Callback) : KeyField := ⟨cb.model, cb.field, cb.deps⟩

/-- The database, the databases to which open transactions and savepoints would roll back, and the cache. -/
structure CacheState where
  db : Db
  savepoints : List Db
  cache : Cache

/-- `κ` is not the default, nobody holds it, nothing is cached under it and the database will not draw it. -/
def CacheState.NewKey (E : Engine) (cb : Callback) (st : CacheState) (κ : Int) : Prop :=
  κ ≠ 0 ∧ st.cache (cacheName (.int κ)) = none ∧ (∀ db ∈ st.db :: st.savepoints, ∀ r ∈ db.rows cb.model.table, r cb.field ≠ .int κ) ∧
  ∀ n, st.db.draws ≤ n → κ ≠ E.rand n

/-- The statement creates no instance of the model and writes neither its key nor what the function reads of the instance itself (that is
left to save()). -/
def Callback.Apart (cb : Callback) : Stmt → Prop
  | .insert t _ => t ≠ cb.model.table
  | .update t _ σ => t = cb.model.table → ∀ x r, σ x r cb.field = r cb.field ∧ ∀ c, c ∈ cb.own ∨ c ∈ cb.key.fks → σ x r c = r c
  | .delete _ _ => True

/-- The database after save(): unchanged when it raised. -/
def dbAfter (db : Db) : Except OrmErr (Db × Row × Val) → Db
  | .ok (db', _, _) => db'
  | .error _ => db

/-- What can happen. -/
inductive CacheStep (A : App) (cb : Callback) (om : OrmModel) : CacheState → CacheState → Prop where
  /-- any other statement, with the triggers it fires -/
  | stmt {st s db'} : LegalStmt A.engine cb st.db s → KeyLegal cb.key st.db s → cb.Apart s →
      A.engine.exec A.fuel s st.db = .ok db' → CacheStep A cb om st { st with db := db' }
  /-- dirty markers come and go -/
  | marks {st marks} : CacheStep A cb om st { st with db := { st.db with dirty := marks } }
  /-- an instance is loaded -/
  | load {st r} : r ∈ st.db.rows cb.model.table → CacheStep A cb om st { st with cache := (loadCached cb st.db r st.cache).2 }
  /-- an instance is constructed -/
  | construct {st obj} : CacheStep A cb om st { st with cache := (constructCached cb st.db obj st.cache).2 }
  /-- an instance with primary key is saved -/
  | save {st mem attr κ1 κ2} : mem cb.model.pk ≠ .null → st.NewKey A.engine cb κ1 → st.NewKey A.engine cb κ2 → κ1 ≠ κ2 →
      ((∀ r ∈ st.db.rows cb.model.table, r cb.model.pk ≠ mem cb.model.pk) →
        ∀ d ∈ cb.deps, d.dep.other.table = cb.model.table → Unlinked d.dep st.db mem) →
      CacheStep A cb om st { st with
        db := dbAfter st.db (A.saveCached cb κ1 κ2 om mem attr st.db st.cache).1
        cache := (A.saveCached cb κ1 κ2 om mem attr st.db st.cache).2 }
  /-- a new instance is saved; the function does not read its primary key, and no row refers to the key before it exists -/
  | create {st mem attr κ k} : k ≠ .null → (∀ r ∈ st.db.rows cb.model.table, r cb.model.pk ≠ k) → st.NewKey A.engine cb κ →
      (∀ d ∈ cb.deps, d.dep.other.table = cb.model.table → Unlinked d.dep st.db fun _ => k) →
      cb.model.pk ∉ cb.own →
      (∀ d ∈ cb.deps, ∀ r : Row, relatedRows d.dep st.db (r.set cb.model.pk k) = relatedRows d.dep st.db (r.set cb.model.pk (mem cb.model.pk))) →
      CacheStep A cb om st { st with
        db := dbAfter st.db (A.createCached cb κ om mem attr k st.db st.cache).1
        cache := (A.createCached cb κ om mem attr k st.db st.cache).2 }
  /-- a cache entry vanishes -/
  | evict {st n} : CacheStep A cb om st { st with cache := st.cache.evict n }
  /-- another attribute caches something under a key of its own -/
  | other {st κ v} : st.NewKey A.engine cb κ → CacheStep A cb om st { st with cache := st.cache.set (cacheName (.int κ)) v }
  /-- a transaction or savepoint begins -/
  | savepoint {st} : CacheStep A cb om st { st with savepoints := st.db :: st.savepoints }
  /-- it ends well -/
  | release {st db0 rest} : st.savepoints = db0 :: rest → CacheStep A cb om st { st with savepoints := rest }
  /-- it is rolled back; the random source goes on, and so does the cache -/
  | rollback {st db0 rest} : st.savepoints = db0 :: rest →
      CacheStep A cb om st { st with db := { db0 with draws := st.db.draws }, savepoints := rest }

/-- Any number of steps. -/
inductive CacheRun (A : App) (cb : Callback) (om : OrmModel) : CacheState → CacheState → Prop where
  | refl {st} : CacheRun A cb om st st
  | step {st st1 st2} : CacheRun A cb om st st1 → CacheStep A cb om st1 st2 → CacheRun A cb om st st2

/-- The model as save() sees it: the `@cached` field is one of its fields, and what the function reads of the instance itself is saved
before it, or is saved as it is, or is the primary key. -/
structure CachedIn (cb : Callback) (om : OrmModel) : Prop where
  model : om.model = cb.model
  proper : om.Proper
  keys : ∀ p ∈ cb.pks, p.1 = cb.model.table → p.2 = cb.model.pk
  order : ∃ pre post, om.saved = pre ++ ⟨cb.field, .cacheKey⟩ :: post ∧ ∀ c, c ∈ cb.own ∨ c ∈ cb.key.fks →
    c = cb.model.pk ∨ c ∈ pre.map SaveField.col ∨ ∃ f ∈ post, f.col = c ∧ f.kind = .plain

/-- A state to begin with: nothing open, nothing cached, every row has a key of its own that is neither the default nor one the database
will draw. -/
structure CacheState.Initial (E : Engine) (cb : Callback) (st : CacheState) : Prop where
  savepoints : st.savepoints = []
  cache : ∀ n, st.cache n = none
  pks : ((st.db.rows cb.model.table).map fun r => r cb.model.pk).Nodup
  notNull : KeysOk cb st.db
  keys : ((st.db.rows cb.model.table).map fun r => r cb.field).Nodup
  ints : ∀ r ∈ st.db.rows cb.model.table, ∃ i : Int, i ≠ 0 ∧ r cb.field = .int i ∧ ∀ n, st.db.draws ≤ n → i ≠ E.rand n

/-- What is required of the project for the theorems about `@cached` attributes: the triggers are installed, they write nothing the
function reads of the instance itself, and the database draws different numbers other than 0. -/
structure CachedSetting (A : App) (D : List Denorm) (cb : Callback) : Prop where
  installed : Installed A.engine D
  declared : KeyDeclared A.engine.backend D cb.key
  noReentry : NoReentry A.engine
  rand : ∀ m n, A.engine.rand m = A.engine.rand n → m = n
  rand0 : ∀ n, A.engine.rand n ≠ 0
  own : ∀ c ∈ cb.own, ¬ Managed A.engine cb.model.table c
  generic : ∀ d ∈ cb.deps, ∀ g, d.dep.rel ≠ .backwardM2M (.generic g)

end Denorm
