import Verif.Code.CondText
import Verif.Code.Install
/-!
# The SQL text of triggers

The strings that `sql()` of the backends' classes return, character by character. `Code/CondText.lean` has the conditions as tokens; here they
are text as well.
-/
namespace Denorm

/-- The character `connection.ops.quote_name` puts around a name. -/
def quoteChar : Backend → Char
  | .mysql => '`'
  | _ => '"'

/-- `connection.ops.quote_name(name)`. Simplification: Django leaves a name alone that already begins and ends with a quote. -/
def qn (b : Backend) (n : String) : String :=
  match b with
  | .mysql => "`" ++ n ++ "`"
  | _ => "\"" ++ n ++ "\""

def Side.str : Side → String
  | .new => "NEW"
  | .old => "OLD"

/-- `"NEW.%s" % qn(c)`, or `"NEW.%s" % c` where the code does not quote. -/
def refText (b : Backend) (s : Side) (c : Col) (quoted : Bool) : String := s.str ++ "." ++ (if quoted then qn b c else c)

/-- `sep.join(parts)` -/
def joinText (sep : String) : List String → String
  | [] => ""
  | [p] => p
  | p :: q :: ps => p ++ sep ++ joinText sep (q :: ps)

/-- `RandomBigInt.sql` (sqlite3/triggers.py:10-12, postgresql/triggers.py:6-8, mysql/triggers.py:6-8). -/
def randomText : Backend → String
  | .sqlite => "RANDOM()"
  | .postgresql => "(9223372036854775806::INT8 * ((RANDOM()-0.5)*2.0) )::INT8"
  | .mysql => "(9223372036854775806 * ((RAND()-0.5)*2.0) )"

/-- `TriggerNestedSelect.sql` with one keyword argument `k: v` (base.py:10-16; sqlite3/triggers.py:15-21; the other backends have the same
text). -/
def nestedSelectText (table : TableName) (columns : List String) (k : Col) (v : String) : String :=
  "SELECT DISTINCT " ++ joinText ", " columns ++ " FROM " ++ table ++ " WHERE " ++ k ++ " = " ++ v

/-- What an INSERT inserts: a row of expressions or the rows of a nested select. -/
inductive InsertSource where
  | values (vs : List String)
  | select (sql : String)

/-- `TriggerActionInsert.sql` (sqlite3/triggers.py:24-37, postgresql/triggers.py:20-42, mysql/triggers.py:20-33). -/
def insertText (b : Backend) (table : TableName) (columns : List Col) (src : InsertSource) : String :=
  let cols := "(" ++ joinText ", " columns ++ ")"
  match b with
  | .sqlite =>
    let values := match src with
      | .select sql => sql
      | .values vs => "VALUES(" ++ joinText ", " vs ++ ")"
    "INSERT OR REPLACE INTO " ++ table ++ " " ++ cols ++ " " ++ values
  | .postgresql =>
    let values := match src with
      | .select sql => "(" ++ sql ++ ")"
      | .values vs => "VALUES (" ++ joinText ", " vs ++ ")"
    "BEGIN\n    INSERT INTO " ++ table ++ " " ++ cols ++ " " ++ values ++
      ";\nEXCEPTION WHEN unique_violation THEN\n    -- do nothing\nEND"
  | .mysql =>
    let values := match src with
      | .select sql => "(" ++ sql ++ ")"
      | .values vs => "VALUES (" ++ joinText ", " vs ++ ")"
    "INSERT IGNORE INTO " ++ table ++ " " ++ cols ++ " " ++ values

/-- `TriggerActionUpdate.sql` with one column (sqlite3/triggers.py:40-51, postgresql/triggers.py:45-57, mysql/triggers.py:36-47). -/
def updateText (table : TableName) (column : Col) (value : String) (wher : String) : String :=
  "UPDATE " ++ table ++ " SET " ++ column ++ " = " ++ value ++ " WHERE " ++ wher

/-- `DirtyInstance._meta.db_table` -/
def dirtyTable : TableName := "denorm_dirtyinstance"

/-- `("content_type_id", "object_id")` -/
def dirtyColumns : List Col := ["content_type_id", "object_id"]

/-- The value in `SET field = ..`: `RandomBigInt`, or `get_increment_value`/`get_decrement_value` (denorms.py:469-477, 519-527), where the field is
quoted. Simplification: the scalar selects of many-to-many sums (denorms.py:479-503) are left out. -/
def SetExpr.text (b : Backend) (field : Col) : SetExpr → String
  | .random => randomText b
  | .plus .one => qn b field ++ " + 1"
  | .minus .one => qn b field ++ " - 1"
  | .plus (.ref s c) => qn b field ++ " + " ++ refText b s c true
  | .minus (.ref s c) => qn b field ++ " - " ++ refText b s c true
  | .plus (.scalar ..) => ""
  | .minus (.scalar ..) => ""

/-- The first condition of an UPDATE action: `"%s = NEW.%s" % (qn(pk), qn(c))` (dependencies.py:120-129, 146-158, 186-203; denorms.py:393-396) or
`pk + ' IN (' + select + ')'`, where nothing but the last name is quoted (dependencies.py:220-229). -/
def Key.text (b : Backend) : Key → String
  | .eq k s c => qn b k ++ " = " ++ refText b s c true
  | .inSelect k sel t wk s c => k ++ " IN (" ++ nestedSelectText t [sel] wk (refText b s c true) ++ ")"

def Lookup.sym : Lookup → String
  | .exact => "="
  | .gt => ">"
  | .gte => ">="
  | .lt => "<"
  | .lte => "<="
  | .oneOf _ => "IN"
  | .between _ => "BETWEEN"

/-- What Django writes after the column. -/
def Lookup.text (lit : Val → String) (v : Val) : Lookup → String
  | .oneOf vs => "IN (" ++ joinText ", " ((v :: vs).map lit) ++ ")"
  | .between hi => "BETWEEN " ++ lit v ++ " AND " ++ lit hi
  | l => l.sym ++ " " ++ lit v

/-- The conditions that Django's `WhereNode.as_sql` joins with AND. `TriggerFilterQuery` (denorms.py:268-302) makes it write `NEW."c"` or `OLD."c"`
for a column; the comparison value goes through `lit`. `negated` tells whether we are below a negation, where Django adds `IS NOT NULL`
conditions. -/
def Filter.parts (b : Backend) (lit : Val → String) (s : Side) (negated : Bool) : Filter → List String
  | .tt => []
  | .cmp c l v => [refText b s c true ++ " " ++ l.text lit v]
  | .isNull c => [refText b s c true ++ " IS NULL"]
  | .and f g => f.parts b lit s negated ++ g.parts b lit s negated
  | .not f =>
    match negated, f with
    | true, .isNull c => [refText b s c true ++ " IS NOT NULL"]
    | _, f => ["NOT (" ++ joinText " AND " (f.parts b lit s true) ++ ")"]

/-- `inc_query.where.as_sql(..)` (denorms.py:404-420): one condition stands alone, several are in parentheses. -/
def Filter.text (b : Backend) (lit : Val → String) (s : Side) (f : Filter) : String :=
  match f.parts b lit s false with
  | [p] => p
  | ps => "(" ++ joinText " AND " ps ++ ")"

/-- Simplification: the guards of many-to-many aggregates (denorms.py:323-341) are left out. -/
def Guard.text (b : Backend) (lit : Val → String) : Guard → String
  | .filter s f => f.text b lit s
  | .someRow .. => ""

/-- How a character is written in a string literal: psycopg2 (`PQescapeStringConn` with `standard_conforming_strings`, the default) doubles quotes; MySQLdb
(`mysql_real_escape_string`) writes backslashes. Simplification: a NUL, which psycopg2 refuses, is passed on. -/
def escapeChar (b : Backend) (c : Char) : List Char :=
  match b with
  | .mysql =>
    if c = '\x00' then ['\\', '0'] else if c = '\n' then ['\\', 'n'] else if c = '\r' then ['\\', 'r'] else if c = '\x1a' then ['\\', 'Z']
    else if c = '\\' then ['\\', '\\'] else if c = '\'' then ['\\', '\''] else if c = '"' then ['\\', '"'] else [c]
  | _ => if c = '\'' then ['\'', '\''] else [c]

def escapeText (b : Backend) (s : String) : String := String.ofList (s.toList.flatMap (escapeChar b))

/-- What stands for a parameter when `cursor.execute(sql, args)` (sqlite3/triggers.py:131, postgresql/triggers.py:158, mysql/triggers.py:127) has sent the
statement: psycopg2 and MySQLdb put an SQL literal into the text, sqlite3 leaves a placeholder. -/
def sentLit (b : Backend) : Val → String
  | .null => match b with
    | .sqlite => "?"
    | _ => "NULL"
  | .int i => match b with
    | .sqlite => "?"
    | _ => toString i
  | .text s => match b with
    | .sqlite => "?"
    | _ => "'" ++ escapeText b s ++ "'"

/-- The text of one action. -/
def Action.text (b : Backend) (lit : Val → String) : Action → String
  | .markValues ct s c quoted => insertText b dirtyTable dirtyColumns (.values [toString ct, refText b s c quoted])
  | .markSelect ct sel t k s c quoted =>
    insertText b dirtyTable dirtyColumns
      (.select (nestedSelectText t [toString ct, if quoted then qn b sel else sel] k (refText b s c true)))
  | .update u => updateText u.table u.col (u.expr.text b u.col) (joinText " AND " (u.key.text b :: u.guards.map (Guard.text b lit)))

/-- `"\n".join`-like effect of `action_list.extend(sql.split('\n'))` followed by `sep.join(action_list)`: every line break is replaced. -/
def reindent (sep : String) (s : String) : String := String.ofList (s.toList.flatMap fun c => if c = '\n' then sep.toList else [c])

/-- The parameters of a condition, in the order in which `as_sql` returns them. -/
def Filter.params : Filter → List Val
  | .tt => []
  | .cmp _ l v => v :: l.more
  | .isNull _ => []
  | .and f g => f.params ++ g.params
  | .not f => f.params

/-- Simplification as in `Guard.text`. -/
def Guard.params : Guard → List Val
  | .filter _ f => f.params
  | .someRow .. => []

/-- The second component of the action's `sql()`: only the conditions of aggregates have parameters (denorms.py:420, 427-438). -/
def Action.params : Action → List Val
  | .update u => u.guards.flatMap Guard.params
  | _ => []

/-- `if not sql.endswith(';'): sql += ';'` -/
def endStmt (s : String) : String := if s.toList.getLast? = some ';' then s else s ++ ";"

/-- The `action_list` joined with `sep` (sqlite3/triggers.py:63-77, postgresql/triggers.py:69-83, mysql/triggers.py:61-74): a semicolon is added if there is
none, repetitions of the same text with the same parameters are left out. Simplification: the parameters are already in the texts that are
compared; and line breaks inside a parameter are not touched by the code. -/
def actionsText (b : Backend) (lit : Val → String) (sep : String) (as : List Action) : String :=
  joinText sep ((dedup (as.map fun a => (endStmt (a.text b lit), a.params))).map fun p => reindent sep p.1)

def Event.upper : Event → String
  | .insert => "INSERT"
  | .update => "UPDATE"
  | .delete => "DELETE"

/-- `(OLD.f IS NOT NEW.f)` etc. (sqlite3/triggers.py:86, postgresql/triggers.py:98, mysql/triggers.py:86). Simplification as in `changedText`. -/
def changedCondText (b : Backend) (f : Col) : String :=
  match b with
  | .sqlite => "(OLD." ++ qn b f ++ " IS NOT NEW." ++ qn b f ++ ")"
  | .postgresql => "(OLD." ++ qn b f ++ " IS DISTINCT FROM NEW." ++ qn b f ++ ")"
  | .mysql => "(NOT(OLD." ++ qn b f ++ " <=> NEW." ++ qn b f ++ "))"

/-- The list `when` of sqlite (sqlite3/triggers.py:84-94). -/
def sqliteConds (t : PyTrigger) : List String :=
  (if t.event = .update then ["(" ++ joinText "OR" (t.fields.map (changedCondText .sqlite)) ++ ")"] else []) ++
  match t.contentTypeField with
  | none => []
  | some c => match t.event with
    | .delete => ["(OLD." ++ qn .sqlite c ++ " == " ++ toString t.contentType ++ ")"]
    | .insert => ["(NEW." ++ qn .sqlite c ++ " == " ++ toString t.contentType ++ ")"]
    | .update => ["((OLD." ++ qn .sqlite c ++ " == " ++ toString t.contentType ++ ") OR (NEW." ++ qn .sqlite c ++ " == " ++ toString t.contentType ++ "))"]

/-- The list `conditions` of PostgreSQL (postgresql/triggers.py:88-111). -/
def postgresConds (t : PyTrigger) : List String :=
  (if t.event = .update then ["(" ++ joinText " OR " (t.fields.map (changedCondText .postgresql)) ++ ")"] else []) ++
  match t.contentTypeField with
  | none => []
  | some c => match t.event with
    | .update => ["(OLD." ++ qn .postgresql c ++ " = " ++ toString t.contentType ++ ") OR (NEW." ++ qn .postgresql c ++ " = " ++ toString t.contentType ++ ")"]
    | .insert => ["(NEW." ++ qn .postgresql c ++ " = " ++ toString t.contentType ++ ")"]
    | .delete => ["(OLD." ++ qn .postgresql c ++ " = " ++ toString t.contentType ++ ")"]

/-- `where` of sqlite (sqlite3/triggers.py:96-99). -/
def sqliteWhen (t : PyTrigger) : String :=
  match sqliteConds t with
  | [] => ""
  | cs => "WHEN(" ++ joinText "AND" cs ++ ")"

/-- The template of sqlite (sqlite3/triggers.py:101-107). -/
def sqliteFrame (name event table wher actions : String) : String :=
  "\nCREATE TRIGGER " ++ name ++ "\n    AFTER " ++ event ++ " ON " ++ table ++ "\n    FOR EACH ROW " ++ wher ++ " BEGIN\n        " ++ actions ++
    "\n    END;\n"

/-- `Trigger.sql` of sqlite (sqlite3/triggers.py:60-107). -/
def sqliteTriggerText (lit : Val → String) (name : String) (t : PyTrigger) : String :=
  sqliteFrame name t.event.upper t.table (sqliteWhen t) (actionsText .sqlite lit "\n        " t.actions)

/-- `actions` of PostgreSQL with the conditions around them (postgresql/triggers.py:113-122). -/
def postgresBody (lit : Val → String) (t : PyTrigger) : String :=
  match postgresConds t with
  | [] => actionsText .postgresql lit "\n        " t.actions
  | cs => "IF " ++ joinText " AND " cs ++ " THEN\n            " ++ actionsText .postgresql lit "\n            " t.actions ++ "\n        END IF;"

/-- The template of PostgreSQL (postgresql/triggers.py:124-138). -/
def postgresFrame (name event table actions : String) : String :=
  "\nCREATE OR REPLACE FUNCTION func_" ++ name ++ "()\n    RETURNS TRIGGER AS $$\n    BEGIN\n        " ++ actions ++
    "\n        RETURN NULL;\n    END;\n$$ LANGUAGE plpgsql;\nCREATE TRIGGER " ++ name ++ "\n    AFTER " ++ event ++ " ON " ++ table ++
    "\n    FOR EACH ROW EXECUTE PROCEDURE func_" ++ name ++ "();\n"

/-- `Trigger.sql` of PostgreSQL (postgresql/triggers.py:66-138). -/
def postgresTriggerText (lit : Val → String) (name : String) (t : PyTrigger) : String :=
  postgresFrame name t.event.upper t.table (postgresBody lit t)

/-- `conditions` of MySQL (mysql/triggers.py:80-88). -/
def mysqlConds (t : PyTrigger) : List String := if t.event = .update then t.fields.map (changedCondText .mysql) else []

/-- `actions` of MySQL with the conditions around them (mysql/triggers.py:90-98). -/
def mysqlBody (lit : Val → String) (t : PyTrigger) : String :=
  match mysqlConds t with
  | [] => actionsText .mysql lit "\n        " t.actions
  | cs => "\n        IF " ++ joinText " OR " cs ++ " THEN\n            " ++ actionsText .mysql lit "\n            " t.actions ++ "\n        END IF;\n            "

/-- The template of MySQL (mysql/triggers.py:100-108). -/
def mysqlFrame (name event table actions : String) : String :=
  "\nCREATE TRIGGER " ++ name ++ "\n    AFTER " ++ event ++ " ON " ++ table ++ "\n    FOR EACH ROW BEGIN\n        " ++ actions ++ "\n    END;\n"

/-- `Trigger.sql` of MySQL (mysql/triggers.py:52-108), the name already shortened. -/
def mysqlTriggerText (lit : Val → String) (name : String) (t : PyTrigger) : String :=
  mysqlFrame name t.event.upper t.table (mysqlBody lit t)

/-- The text that is sent to the database for one trigger. -/
def PyTrigger.text (b : Backend) (lit : Val → String) (name : String) (t : PyTrigger) : String :=
  match b with
  | .sqlite => sqliteTriggerText lit name t
  | .postgresql => postgresTriggerText lit name t
  | .mysql => mysqlTriggerText lit name t

/-- `name` at the beginning of `Trigger.sql` (sqlite3/triggers.py:63, postgresql/triggers.py:67, mysql/triggers.py:54-59): `createdName` without the folding
that PostgreSQL does when it reads the name. -/
def writtenName (b : Backend) (hash : String → String) (draw : String) (name : String) : String :=
  match b with
  | .sqlite => name
  | .postgresql => truncateName hash name (63 - 5)
  | .mysql => if name.length > 50 then String.ofList (name.toList.take 45) ++ draw else name

/-- The texts that `install_atomic` sends (sqlite3/triggers.py:126-131, postgresql/triggers.py:151-158; MySQL's `install`, mysql/triggers.py:122-126), one for
each entry of the TriggerSet; `lit` tells how parameters are put in. -/
def triggerTexts (b : Backend) (lit : Val → String) (hash : String → String) (draws : Nat → String) : Nat → TriggerSet → List String
  | _, [] => []
  | n, p :: ts => p.2.text b lit (writtenName b hash (draws n) p.1) :: triggerTexts b lit hash draws (n + 1) ts

/-- Python's `%s` of a parameter. -/
def printedLit : Val → String
  | .null => "None"
  | .int i => toString i
  | .text s => s

/-- What `denorm_init` sends (denorms.py:575-579). -/
def sentTexts (b : Backend) (hash : String → String) (draws : Nat → String) (decls : List Denorm) : List String :=
  triggerTexts b (sentLit b) hash draws 0 (buildTriggerset b decls)

/-- What `denorm_sql` prints: `sql % tuple(params)` (management/commands/denorm_sql.py:8-14). -/
def printedTexts (b : Backend) (hash : String → String) (draws : Nat → String) (decls : List Denorm) : List String :=
  triggerTexts b printedLit hash draws 0 (buildTriggerset b decls)

end Denorm
