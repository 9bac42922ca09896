import Verif.Code.SqlText
/-!
# `cursor.execute(sql, args)`

`Trigger.sql` returns a text with placeholders `%s` and a tuple of parameters; the database drivers put them together. `Code/SqlText.lean` writes the
parameters directly into the text. Here are the text with placeholders, the parameters and what the drivers make of them.
-/
namespace Denorm

/-- How a parameter stands in the text that `Trigger.sql` returns: Django's `as_sql` writes `%s` for each (denorms.py:404-420). -/
def placeholder (_ : Val) : String := "%s"

/-- The first component of `Trigger.sql()`: as `PyTrigger.text`, with placeholders. Text and parameters of an action are compared when repetitions are left
out. -/
def PyTrigger.template (b : Backend) (name : String) (t : PyTrigger) : String := t.text b placeholder name

/-- The second component of `Trigger.sql()`: the parameters of the actions that are not left out (sqlite3/triggers.py:64-76,
postgresql/triggers.py:68-80, mysql/triggers.py:60-73). -/
def PyTrigger.params (b : Backend) (t : PyTrigger) : List Val :=
  (dedup (t.actions.map fun a => (endStmt (a.text b placeholder), a.params))).flatMap (·.2)

/-- Python's `text % tuple(args)`, and what psycopg2 and MySQLdb do with the text and the literals: `%s` stands for the next argument and `%%` for a percent
sign. There is an error for anything else after a percent sign and for a wrong number of arguments. Simplification: Python knows further conversions,
none of which takes a literal, except `%r`, `%a` and those with a width. -/
def pyFormat : List Char → List (List Char) → Option (List Char)
  | '%' :: 's' :: cs, a :: as => (pyFormat cs as).map (a ++ ·)
  | '%' :: 's' :: _, [] => none
  | '%' :: '%' :: cs, as => (pyFormat cs as).map ('%' :: ·)
  | '%' :: _, _ => none
  | c :: cs, as => (pyFormat cs as).map (c :: ·)
  | [], [] => some []
  | [], _ :: _ => none

/-- `FORMAT_QMARK_REGEX.sub('?', query)` with the expression `(?<!%)%s`, in Django's `SQLiteCursorWrapper.convert_query`; `after` tells whether the character
before was a percent sign. -/
def questionMarks (after : Bool) : List Char → List Char
  | '%' :: 's' :: cs => if after then '%' :: 's' :: questionMarks false cs else '?' :: questionMarks false cs
  | c :: cs => c :: questionMarks (c == '%') cs
  | [] => []

/-- How many placeholders `questionMarks` replaces. -/
def countMarks (after : Bool) : List Char → Nat
  | '%' :: 's' :: cs => if after then countMarks false cs else countMarks false cs + 1
  | c :: cs => countMarks (c == '%') cs
  | [] => 0

/-- `.replace('%%', '%')` in `convert_query` -/
def singlePercents : List Char → List Char
  | '%' :: '%' :: cs => '%' :: singlePercents cs
  | c :: cs => c :: singlePercents cs
  | [] => []

/-- The text that `cursor.execute(sql, args)` (sqlite3/triggers.py:131, postgresql/triggers.py:158, mysql/triggers.py:126) sends to the database, or `none` if
it raises before. sqlite gets the arguments beside the text; the sqlite3 module raises if their number is not that of the placeholders.
Simplification: question marks inside of quoted names are no placeholders either. -/
def execute (b : Backend) (sql : String) (args : List Val) : Option String :=
  match b with
  | .sqlite => if countMarks false sql.toList = args.length then some (String.ofList (singlePercents (questionMarks false sql.toList))) else none
  | _ => (pyFormat sql.toList (args.map fun v => (sentLit b v).toList)).map String.ofList

/-- What `install_atomic`, on MySQL `install`, executes for each entry of the TriggerSet (sqlite3/triggers.py:126-131, postgresql/triggers.py:151-158,
mysql/triggers.py:122-126). -/
def executeAll (b : Backend) (hash : String → String) (draws : Nat → String) : Nat → TriggerSet → List (Option String)
  | _, [] => []
  | n, p :: ts => execute b (p.2.template b (writtenName b hash (draws n) p.1)) (p.2.params b) :: executeAll b hash draws (n + 1) ts

/-- What `denorm_init` executes (denorms.py:575-579). -/
def executedTexts (b : Backend) (hash : String → String) (draws : Nat → String) (decls : List Denorm) : List (Option String) :=
  executeAll b hash draws 0 (buildTriggerset b decls)

/-- `sql % tuple(params)` for each entry (management/commands/denorm_sql.py:8-14); `none` if that raises. -/
def formatAll (b : Backend) (hash : String → String) (draws : Nat → String) : Nat → TriggerSet → List (Option String)
  | _, [] => []
  | n, p :: ts =>
    (pyFormat (p.2.template b (writtenName b hash (draws n) p.1)).toList ((p.2.params b).map fun v => (printedLit v).toList)).map String.ofList ::
      formatAll b hash draws (n + 1) ts

end Denorm
