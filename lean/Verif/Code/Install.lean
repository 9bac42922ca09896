import Verif.Code.GetTriggers
/-!
# Creating and dropping the triggers (`TriggerSet.install`, `TriggerSet.drop`, `Trigger.sql` of the three backends)

What is taken from the databases: a trigger name is unique in the database (sqlite, whatever the case of its letters; MySQL) or on its table
(PostgreSQL); DDL is transactional in sqlite and PostgreSQL, and in MySQL every DDL statement commits; `LIKE` ignores the case of
ASCII letters in sqlite and respects it in PostgreSQL; PostgreSQL folds the unquoted name in CREATE TRIGGER to lower case.

Simplifications: the functions that PostgreSQL triggers call are part of the trigger; `CREATE LANGUAGE plpgsql` is left out; all tables are in
one schema; the fallback for Django versions without `transaction.atomic` (`except AttributeError`) is left out.
-/
namespace Denorm

/-- What a trigger in the catalogue does: created by django-denorm, or by someone else. -/
inductive TriggerBody where
  | denorm (t : DbTrigger)
  | other (sql : String)
deriving DecidableEq, Repr

/-- A trigger in the catalogue (`sqlite_master`, `pg_trigger`, `SHOW TRIGGERS`). -/
structure CatTrigger where
  name : String
  table : TableName
  body : TriggerBody
deriving DecidableEq, Repr

abbrev Catalog := List CatTrigger

/-- The databases of a project, by alias. -/
abbrev Server := String → Catalog

/-- `DEFAULT_DB_ALIAS` -/
def defaultAlias : String := "default"

def Server.set (s : Server) (alias : String) (c : Catalog) : Server := fun a => if a = alias then c else s a

/-- The suffixes of a list, the list itself included. -/
def suffixes {α : Type _} : List α → List (List α)
  | [] => [[]]
  | x :: l => (x :: l) :: suffixes l

/-- SQL `LIKE`: `%` stands for any text, `_` for any one character; letters are compared after `fold`. -/
def like (fold : Char → Char) : List Char → List Char → Bool
  | [], s => s.isEmpty
  | p :: ps, s =>
    if p = '%' then (suffixes s).any (like fold ps)
    else
      match s with
      | [] => false
      | c :: cs => (p = '_' || fold p == fold c) && like fold ps cs

/-- The names that `drop` selects: `name LIKE 'denorm_%%'` (sqlite3/triggers.py:114, postgresql/triggers.py:139; no parameters are given, so
Django passes the two `%` on), `startswith('denorm_')` (mysql/triggers.py:119). -/
def dropsName (b : Backend) (name : String) : Bool :=
  match b with
  | .sqlite => like Char.toLower "denorm_%%".toList name.toList
  | .postgresql => like id "denorm_%%".toList name.toList
  | .mysql => "denorm_".toList.isPrefixOf name.toList

/-- The statements that are sent. -/
inductive Ddl where
  | create (t : CatTrigger)
  | drop (name : String) (table : TableName)

/-- A trigger of that name on that table is in the way of a new one / is the one that DROP TRIGGER removes. -/
def CatTrigger.named (b : Backend) (t : CatTrigger) (name : String) (table : TableName) : Bool :=
  match b with
  | .sqlite => lower t.name == lower name
  | .postgresql => t.name == name && t.table == table
  | .mysql => t.name == name

/-- The statement is well-formed: with an empty list of watched columns the UPDATE condition is `WHEN(())` in sqlite (sqlite3/triggers.py:86)
and `IF () THEN` in PostgreSQL (postgresql/triggers.py:100). -/
def CatTrigger.wellFormed (b : Backend) (t : CatTrigger) : Bool :=
  match t.body with
  | .other _ => true
  | .denorm d => b == .mysql || d.event != .update || !d.fields.isEmpty

/-- One statement. `none`: the database reports an error. -/
def Ddl.run (b : Backend) (c : Catalog) : Ddl → Option Catalog
  | .create t => if t.wellFormed b && !c.any (fun t' => t'.named b t.name t.table) then some (c ++ [t]) else none
  | .drop name table => if c.any (fun t => t.named b name table) then some (c.filter fun t => !t.named b name table) else none

/-- A sequence of statements. `fails n` says that the n-th statement fails for a reason outside the model (permissions, locks, a lost
connection). The result is the catalogue reached, and whether all of them were executed. -/
def runDdl (b : Backend) (fails : Nat → Bool) : Nat → List Ddl → Catalog → Catalog × Bool
  | _, [], c => (c, true)
  | n, s :: ss, c =>
    if fails n then (c, false)
    else
      match s.run b c with
      | none => (c, false)
      | some c' => runDdl b fails (n + 1) ss c'

/-- The statements on the connection `using`, in `with transaction.atomic():`, which is a transaction on the default connection
(sqlite3/triggers.py:118-124 and 133-139, postgresql/triggers.py:143-149 and 160-166), or, in MySQL, without a transaction. When a statement fails, the default
database is rolled back; what was done on another connection stays, and so does, in MySQL, what was done. The result: the databases,
and whether the call returned (otherwise it raised). -/
def transact (b : Backend) (fails : Nat → Bool) (using_ : String) (ss : List Ddl) (s : Server) : Server × Bool :=
  let r := runDdl b fails 0 ss (s using_)
  let s' := s.set using_ r.1
  if r.2 then (s', true)
  else
    match b with
    | .mysql => (s', false)
    | _ => (s'.set defaultAlias (s defaultAlias), false)

/-- `django.db.backends.utils.truncate_name(name, length)`, with `hash_len = 4`; `hash` is the hexadecimal MD5. -/
def truncateName (hash : String → String) (name : String) (length : Nat) : String :=
  if name.length ≤ length then name
  else String.ofList (name.toList.take (length - 4)) ++ String.ofList ((hash name).toList.take 4)

/-- The name in the CREATE TRIGGER statement (sqlite3/triggers.py:63, postgresql/triggers.py:67, mysql/triggers.py:54-59; PostgreSQL's
`max_name_length()` is 63). `draw` is the five random characters. -/
def createdName (b : Backend) (hash : String → String) (draw : String) (name : String) : String :=
  match b with
  | .sqlite => name
  | .postgresql => lower (truncateName hash name (63 - 5))
  | .mysql => if name.length > 50 then String.ofList (name.toList.take 45) ++ draw else name

/-- The trigger that the entry of a TriggerSet becomes. -/
def createdTrigger (b : Backend) (hash : String → String) (draw : String) (p : String × PyTrigger) : CatTrigger :=
  let name := createdName b hash draw p.1
  ⟨name, p.2.table, .denorm (p.2.compile name)⟩

/-- The statements of `install_atomic` (sqlite3/triggers.py:126-131, postgresql/triggers.py:151-158) and MySQL's `install` (mysql/triggers.py:122-126). -/
def installStmts (b : Backend) (hash : String → String) (draws : Nat → String) : Nat → TriggerSet → List Ddl
  | _, [] => []
  | n, p :: ts => .create (createdTrigger b hash (draws n) p) :: installStmts b hash draws (n + 1) ts

/-- The statements of `drop_atomic` (sqlite3/triggers.py:110-116, postgresql/triggers.py:136-141) and MySQL's `drop` (mysql/triggers.py:110-120). -/
def dropStmts (b : Backend) (c : Catalog) : List Ddl :=
  (c.filter fun t => dropsName b t.name).map fun t => .drop t.name t.table

/-- `install_triggers(using)` (denorms.py:575-579). -/
def installTriggers (b : Backend) (hash : String → String) (draws : Nat → String) (fails : Nat → Bool) (using_ : String) (D : List Denorm)
    (s : Server) : Server × Bool :=
  transact b fails using_ (installStmts b hash draws 0 (buildTriggerset b D)) s

/-- `drop_triggers(using)` (denorms.py:569-572). -/
def dropTriggers (b : Backend) (fails : Nat → Bool) (using_ : String) (s : Server) : Server × Bool :=
  transact b fails using_ (dropStmts b (s using_)) s

end Denorm
