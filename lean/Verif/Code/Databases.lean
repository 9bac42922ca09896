import Verif.Code.Install
import Verif.Code.Rebuild
/-!
# Several databases, and which module writes the triggers (db/__init__.py)

Simplifications: the only trigger modules are the library's own three; there are no database routers, so that Django reads and writes every model in
the default database unless told otherwise, and saves an instance to the database it was loaded from.
-/
namespace Denorm

/-- The entry of `settings.DATABASES` for one alias, as far as django-denorm looks at it. -/
structure DbSettings where
  engine : String
  denormBackend : Option String := none

abbrev DbConfig := String → DbSettings

/-- What importing `denorm.db` can raise. -/
inductive LoadErr where
  /-- `engine.rsplit(".", 1)[1]` without a dot (db/__init__.py:33) -/
  | indexError
  /-- there is no such module (db/__init__.py:35-38) -/
  | importError (backend : String)
deriving DecidableEq, Repr

/-- `engine.rsplit(".", 1)[1]`; `none`: IndexError. -/
def afterLastDot (s : String) : Option String :=
  if '.' ∈ s.toList then some (String.ofList (s.toList.reverse.takeWhile fun c => c ≠ '.').reverse) else none

/-- `DB_GUESS_MAPPING` and `backend_for_dbname` (db/__init__.py:19-26). -/
def backendForDbname (dbName : String) : String :=
  "denorm.db." ++ if dbName = "postgis" then "postgresql" else if dbName = "postgresql_psycopg2" then "postgresql" else dbName

/-- `backend` (db/__init__.py:28-33): from the settings of the default database, whatever database is worked on later. -/
def backendName (cfg : DbConfig) : Except LoadErr String :=
  match (cfg defaultAlias).denormBackend with
  | some n => .ok n
  | none =>
    match afterLastDot (cfg defaultAlias).engine with
    | some n => .ok (backendForDbname n)
    | none => .error .indexError

/-- `triggers = __import__(backend + '.triggers')` (db/__init__.py:35-38). -/
def triggersModule (cfg : DbConfig) : Except LoadErr Backend :=
  match backendName cfg with
  | .error e => .error e
  | .ok n =>
    if n = "denorm.db.sqlite3" then .ok .sqlite
    else if n = "denorm.db.mysql" then .ok .mysql
    else if n = "denorm.db.postgresql" then .ok .postgresql
    else .error (.importError n)

/-- The project, with one application (engine, models) per database alias. -/
abbrev Site := String → App

/-- `flush()` in a project with several databases: `DirtyInstance.objects` is the default database's table (denorms.py:607-608, 632-635), `content_object` is
looked up where the marker was found and is saved there. -/
def Site.flush (S : Site) (n : Nat) (dbs : String → Db) : Except OrmErr (Option (String → Db)) :=
  match (S defaultAlias).flush n (dbs defaultAlias) with
  | .error e => .error e
  | .ok none => .ok none
  | .ok (some db) => .ok (some fun a => if a = defaultAlias then db else dbs a)

/-- `rebuildall()`: `model.objects.all()` and `DirtyInstance.objects.create` (denorms.py:561-565) use the default database. -/
def Site.rebuildall (S : Site) (alldenorms : List Denorm) (modelName fieldName : Option String) (n : Nat) (dbs : String → Db) :
    Except OrmErr (Option (String → Db)) :=
  match (S defaultAlias).rebuildall alldenorms modelName fieldName n (dbs defaultAlias) with
  | .error e => .error e
  | .ok none => .ok none
  | .ok (some db) => .ok (some fun a => if a = defaultAlias then db else dbs a)

/-! ## Django versions -/

/-- What evaluating `qs.distinct('content_type', 'object_id')` does. -/
inductive DistinctOn where
  | works
  | notImplementedError
  /-- a `DatabaseError`, not a `NotImplementedError` -/
  | notSupportedError
deriving DecidableEq, Repr

/-- Django's `DatabaseOperations.distinct_sql`: only PostgreSQL has DISTINCT ON; Django 2.1 changed the exception for the others. A version is (major, minor). -/
def distinctOn (version : Nat × Nat) (b : Backend) : DistinctOn :=
  if b = .postgresql then .works
  else if version.1 < 2 ∨ (version.1 = 2 ∧ version.2 < 1) then .notImplementedError
  else .notSupportedError

/-- What leaves `flush()`. -/
inductive FlushErr where
  | notSupported
  | orm (e : OrmErr)
deriving DecidableEq, Repr

/-- `flush()` with the attempt to use DISTINCT ON in each pass (denorms.py:610-616): only `NotImplementedError` is caught. -/
def App.flushIn (version : Nat × Nat) (A : App) : Nat → Db → Except FlushErr (Option Db)
  | n, db =>
    match distinctOn version A.engine.backend with
    | .notSupportedError => .error .notSupported
    | _ =>
      if db.dirty = [] then .ok (some db)
      else match n with
        | 0 => .ok none
        | n + 1 =>
          match A.pass db with
          | .ok db' => A.flushIn version n db'
          | .error e => .error (.orm e)

end Denorm
