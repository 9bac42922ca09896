import Verif.Code.SqlText
import Verif.Sql.Text
/-!
# When the text of a trigger is what was meant

Which names and values can be written into the text of a trigger the way the library writes them, and when a trigger that was read from a text is the
one that was generated.
-/
namespace Denorm

/-- A non-empty text of letters, digits and underscores. -/
def WordText (s : String) : Prop := s ≠ "" ∧ s.toList.all isWordChar = true

/-- No `$$` in it. -/
def noDollars : List Char → Bool
  | '$' :: '$' :: _ => false
  | _ :: cs => noDollars cs
  | [] => true

/-- The name may be put in quotes: no quote, no percent sign and no line break in it, and no `$$` on PostgreSQL. -/
def QuotableName (b : Backend) (n : String) : Prop :=
  nameQuote b ∉ n.toList ∧ '\n' ∉ n.toList ∧ '%' ∉ n.toList ∧ (b = .postgresql → noDollars n.toList = true)

/-- A name that can be written without quotes: letters, digits and underscores, no digit first, not reserved, and on PostgreSQL not changed by folding
to lower case. -/
structure PlainName (D : Dialect) (n : String) : Prop where
  word : WordText n
  digit : n.toList.head?.any Char.isDigit = false
  free : D.reserved (foldCase n) = false
  lower : D.backend = .postgresql → foldCase n = n

/-- The literal can be written in the text of a trigger; on sqlite there is a placeholder instead. On PostgreSQL a text must not contain `$$`, which ends the
body of the trigger's function, nor NUL. Line breaks are left out on PostgreSQL because of the simplification in `actionsText`. -/
def LitOk (b : Backend) (v : Val) : Prop :=
  b ≠ .sqlite ∧
  match v with
  | .null => False
  | .int _ => True
  | .text s => b = .postgresql → '\n' ∉ s.toList ∧ '\x00' ∉ s.toList ∧ noDollars s.toList = true

/-- None of the words that the library itself uses as names is reserved. -/
structure DialectOk (D : Dialect) : Prop where
  own : ∀ n, D.reserved ("denorm_" ++ n) = false
  func : ∀ n, D.reserved ("func_denorm_" ++ n) = false
  column1 : D.reserved "content_type_id" = false
  column2 : D.reserved "object_id" = false

/-- The names of a relation that are written without quotes somewhere: tables and key columns. -/
def Rel.bare : Rel → List String
  | .forward f => [f.column]
  | .backward f => [f.column]
  | .forwardM2M (.m2m f) => [f.through, f.colName, f.revName]
  | .backwardM2M (.m2m f) => [f.through, f.colName, f.revName]
  | .forwardM2M (.generic g) => [g.remoteTable, g.objectIdField, g.remotePk]
  | .backwardM2M (.generic g) => [g.remoteTable, g.objectIdField, g.remotePk]

/-- The columns of a relation that are written in quotes only. -/
def Rel.columns : Rel → List String
  | .forwardM2M (.generic g) => (g.ctFieldName ++ "_id") :: g.remoteFields
  | .backwardM2M (.generic g) => (g.ctFieldName ++ "_id") :: g.remoteFields
  | _ => []

def Dep.bare (d : Dep) : List String := [d.this.table, d.this.pkTable, d.this.pk, d.other.table, d.other.pk] ++ d.rel.bare

def Dep.columns (d : Dep) : List String := d.other.fields.map (·.attname) ++ d.rel.columns

/-- The names of a declaration that are written without quotes: its tables, key columns and the denormalized field. -/
def Denorm.bare : Denorm → List String
  | .callback _ m _ _ deps => [m.table, m.pk] ++ deps.flatMap Dep.bare
  | .cacheKey _ f deps => f :: deps.flatMap Dep.bare
  | .aggregate a => [a.model.table, a.model.pk, a.fieldname, a.related.table, a.fk.attname]

/-- The columns of a declaration that are written in quotes only. -/
def Denorm.columns : Denorm → List String
  | .callback _ m _ _ deps => m.fields.map (·.attname) ++ deps.flatMap Dep.columns
  | .cacheKey _ _ deps => deps.flatMap Dep.columns
  | .aggregate a => a.related.fields.map (·.attname) ++ (match a.agg with | .sum f => [f] | .count => []) ++ (a.filter ++ a.exclude).map (·.col)

/-- The conditions of a declaration. -/
def Denorm.conds : Denorm → List Cond
  | .aggregate a => a.filter ++ a.exclude
  | _ => []

/-- The class statement does not raise: with sqlite as the default database `AggregateField.__init__` refuses `filter=` (fields.py:130-132). -/
def Denorm.Declarable (b : Backend) : Denorm → Prop
  | .aggregate a => b = .sqlite → a.filter = []
  | _ => True

/-- The names and values of a declaration can be written the way the library writes them. -/
structure Denorm.Writable (D : Dialect) (d : Denorm) : Prop where
  bare : ∀ n ∈ d.bare, PlainName D n
  columns : ∀ n ∈ d.columns, QuotableName D.backend n
  values : ∀ c ∈ d.conds, (c.lookup = .exact ∧ c.value = .null) ∨ ∀ v ∈ c.values, LitOk D.backend v

/-- The trigger that the database read is the trigger `tr` of the engine: name, table, event and statements are the same, and its condition, as an SQL
expression, is TRUE exactly for the changes for which `tr` runs. -/
structure ReadTrigger.Means (b : Backend) (r : ReadTrigger) (tr : DbTrigger) : Prop where
  name : r.name = tr.name
  table : r.table = tr.table
  event : r.event = tr.event
  actions : r.actions = tr.actions
  always : r.cond = none → ∀ ch, tr.fires b ch = true
  cond : ∀ ts, r.cond = some ts → ∃ e, Parses ts e ∧ ∀ ch, e.eval ch = some true ↔ tr.fires b ch = true

/-- The hash and the random characters that go into shortened names are lower-case letters, digits or underscores. -/
structure NamePieces (hash : String → String) (draws : Nat → String) : Prop where
  hash : ∀ s, ∀ c ∈ (hash s).toList, isWordChar c = true ∧ c.toLower = c
  draws : ∀ n, ∀ c ∈ (draws n).toList, isWordChar c = true

/-- Every UPDATE trigger watches at least one column. -/
def WatchesColumns (b : Backend) (decls : List Denorm) : Prop :=
  ∀ p ∈ buildTriggerset b decls, p.2.event = .update → p.2.fields ≠ []

/-- The database can read the text: it is a CREATE TRIGGER statement, and its condition, if there is one, is an expression. -/
def Accepted (D : Dialect) (text : String) : Prop :=
  ∃ r, parseTrigger D (lex D.backend text) = some r ∧ ∀ ts, r.cond = some ts → ∃ e, Parses ts e

end Denorm
