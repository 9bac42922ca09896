import Verif.Code.Install
import Verif.Code.Rebuild
import Verif.Spec.Install
/-!
# Putting a new version of a project into production

The management commands one after the other, on a database with data: `denorm_drop` (management/commands/denorm_drop.py:20-23), `migrate`, `denorm_init`
(management/commands/denorm_init.py:21-23), `denorm_rebuild` (management/commands/denorm_rebuild.py:8-10). Only the default database.

What is taken from Django: on sqlite a migration that changes a table creates a new table, copies the rows, drops the old table and renames the new one
(`DatabaseSchemaEditor._remake_table`); the triggers of the old table are gone with it. The other databases change tables in place. django-denorm has no hook that
runs after migrations.
-/
namespace Denorm

/-- A database in production: the triggers that are in it and its content. -/
structure Production where
  server : Server
  db : Db

/-- What is left of the triggers after a migration that changes these tables. -/
def remake (b : Backend) (tables : List TableName) (c : Catalog) : Catalog :=
  match b with
  | .sqlite => c.filter fun t => !tables.contains t.table
  | _ => c

/-- `migrate`: `change` is what it does to the rows (new columns with their defaults, ...). -/
def Production.migrate (b : Backend) (tables : List TableName) (change : Db → Db) (p : Production) : Production :=
  ⟨p.server.set defaultAlias (remake b tables (p.server defaultAlias)), change p.db⟩

/-- `denorm_drop`. `none`: it raises. -/
def Production.drop (b : Backend) (fails : Nat → Bool) (p : Production) : Option Production :=
  match dropTriggers b fails defaultAlias p.server with
  | (s, true) => some ⟨s, p.db⟩
  | (_, false) => none

/-- `denorm_init`. `none`: it raises. -/
def Production.init (b : Backend) (hash : String → String) (draws : Nat → String) (fails : Nat → Bool) (D : List Denorm) (p : Production) : Option Production :=
  match installTriggers b hash draws fails defaultAlias D p.server with
  | (s, true) => some ⟨s, p.db⟩
  | (_, false) => none

/-- The database, with the triggers that are in it. -/
def Production.engine (b : Backend) (rand : Nat → Int) (p : Production) : Engine := (p.server defaultAlias).engine b rand

/-- `denorm_rebuild`, by the code of the project `A`. `none`: it raises, or has not come to an end after `n` passes. -/
def Production.rebuild (b : Backend) (rand : Nat → Int) (A : App) (D : List Denorm) (n : Nat) (p : Production) : Option Production :=
  match App.rebuildall { A with engine := p.engine b rand } D none none n p.db with
  | .ok (some db) => some ⟨p.server, db⟩
  | _ => none

/-- All of it. -/
def Production.deploy (b : Backend) (hash : String → String) (draws : Nat → String) (fails fails' : Nat → Bool) (rand : Nat → Int) (tables : List TableName)
    (change : Db → Db) (A : App) (D : List Denorm) (n : Nat) (p : Production) : Option Production :=
  (p.drop b fails).bind fun p1 => ((p1.migrate b tables change).init b hash draws fails' D).bind fun p2 => p2.rebuild b rand A D n

end Denorm
