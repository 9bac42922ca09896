import Std.Data.String.ToNat
import Verif.Code.CondText
/-!
# How the databases read the text of a trigger

A lexer and a parser for the part of SQL that django-denorm emits. The parser accepts only text it understands completely; keywords have to be in
upper case, as the library writes them.
-/
namespace Denorm

/-- Lexical tokens. -/
inductive LTok where
  /-- a keyword, an unquoted name or a number -/
  | word (s : String)
  /-- a name in quotes -/
  | quoted (s : String)
  /-- a string literal -/
  | str (s : String)
  | sym (c : Char)
  /-- a quote that is never closed -/
  | bad
deriving DecidableEq, Repr

def isWordChar (c : Char) : Bool := c.isAlphanum || c == '_'

/-- Where the lexer is: between tokens, in a word, in a quoted name, in a string literal, after a quote or (MySQL) a backslash in a string literal, after one
`-`, in a comment. -/
inductive LexSt where
  | idle
  | word (acc : List Char)
  | quote (acc : List Char)
  | str (acc : List Char)
  | strQuote (acc : List Char)
  | strEscape (acc : List Char)
  | dash
  | comment
deriving DecidableEq, Repr

/-- The character that encloses names: `"` in sqlite and PostgreSQL, a backtick in MySQL. -/
def nameQuote : Backend → Char
  | .mysql => '`'
  | _ => '"'

/-- A character between tokens. -/
def lexStart (b : Backend) (c : Char) : LexSt × List LTok :=
  if isWordChar c then (.word [c], [])
  else if c = nameQuote b then (.quote [], [])
  else if c = '\'' then (.str [], [])
  else if c = ' ' ∨ c = '\n' then (.idle, [])
  else if c = '-' then (.dash, [])
  else (.idle, [.sym c])

/-- The character that `\\c` stands for in a string literal of MySQL. -/
def mysqlUnescape (c : Char) : Char :=
  if c = '0' then '\x00' else if c = 'n' then '\n' else if c = 'r' then '\r' else if c = 'Z' then '\x1a' else if c = 't' then '\t' else if c = 'b' then '\x08' else c

/-- On PostgreSQL everything in quotes stands in the body of a function, between `$$` and `$$`; so the body ends at a `$$` in quotes, and what is in the text is not
what was meant. -/
def endsBody (b : Backend) (acc : List Char) (c : Char) : Bool := b == .postgresql && c == '$' && acc.getLast? == some '$'

/-- One character. In a string two quotes stand for one; MySQL also knows backslashes (PostgreSQL does not, with `standard_conforming_strings`). (A doubled quote
inside a name is not understood as a quote; such names are never read as one token here.) -/
def lexStep (b : Backend) (st : LexSt) (c : Char) : LexSt × List LTok :=
  match st with
  | .idle => lexStart b c
  | .word acc =>
    if isWordChar c then (.word (acc ++ [c]), [])
    else ((lexStart b c).1, .word (String.ofList acc) :: (lexStart b c).2)
  | .quote acc =>
    if c = nameQuote b then (.idle, [.quoted (String.ofList acc)])
    else if endsBody b acc c then (.idle, [.bad])
    else (.quote (acc ++ [c]), [])
  | .str acc =>
    if c = '\'' then (.strQuote acc, [])
    else if b = .mysql ∧ c = '\\' then (.strEscape acc, [])
    else if endsBody b acc c then (.idle, [.bad])
    else (.str (acc ++ [c]), [])
  | .strQuote acc =>
    if c = '\'' then (.str (acc ++ ['\'']), [])
    else ((lexStart b c).1, .str (String.ofList acc) :: (lexStart b c).2)
  | .strEscape acc => (.str (acc ++ [mysqlUnescape c]), [])
  | .dash =>
    if c = '-' then (.comment, [])
    else ((lexStart b c).1, .sym '-' :: (lexStart b c).2)
  | .comment => if c = '\n' then (.idle, []) else (.comment, [])

/-- The end of the text. -/
def lexEnd : LexSt → List LTok
  | .idle | .comment => []
  | .word acc => [.word (String.ofList acc)]
  | .dash => [.sym '-']
  | .strQuote acc => [.str (String.ofList acc)]
  | .quote _ | .str _ | .strEscape _ => [.bad]

def lexRun (b : Backend) : LexSt → List Char → LexSt × List LTok
  | st, [] => (st, [])
  | st, c :: cs =>
    let p := lexStep b st c
    let q := lexRun b p.1 cs
    (q.1, p.2 ++ q.2)

/-- The tokens of a text. -/
def lex (b : Backend) (s : String) : List LTok :=
  (lexRun b .idle s.toList).2 ++ lexEnd (lexRun b .idle s.toList).1

/-- A database: its kind and its reserved words, in lower case. -/
structure Dialect where
  backend : Backend
  reserved : String → Bool

/-- Lower case, as PostgreSQL folds unquoted names (ASCII). -/
def foldCase (s : String) : String := String.ofList (s.toList.map Char.toLower)

/-- The name an identifier denotes: a quoted one is taken as it is; an unquoted one must not be reserved nor begin with a digit, and PostgreSQL folds it to
lower case. (sqlite and, for columns, MySQL compare names without regard to case anyway.) -/
def identOf (D : Dialect) : LTok → Option String
  | .quoted w => some w
  | .word w =>
    if D.reserved (foldCase w) || (w.toList.head?.any Char.isDigit) then none
    else some (if D.backend = .postgresql then foldCase w else w)
  | _ => none

/-- Whether the identifier is written in quotes. -/
def LTok.isQuoted : LTok → Bool
  | .quoted _ => true
  | _ => false

/-- The number that a word denotes, if it is the decimal notation of one. -/
def numOf : LTok → Option Nat
  | .word w =>
    let n := Nat.ofDigitChars 10 w.toList 0
    if n.repr = w then some n else none
  | _ => none

def sideOf (w : String) : Option Side := if w = "NEW" then some .new else if w = "OLD" then some .old else none

/-- `NEW.c`; also tells whether `c` is quoted. -/
def parseRef (D : Dialect) : List LTok → Option ((Side × Col × Bool) × List LTok)
  | .word w :: .sym '.' :: c :: rest =>
    match sideOf w, identOf D c with
    | some s, some n => some ((s, n, c.isQuoted), rest)
    | _, _ => none
  | _ => none

/-- `FROM t WHERE k = NEW.c` -/
def parseFrom (D : Dialect) : List LTok → Option ((TableName × Col × Side × Col) × List LTok)
  | .word "FROM" :: t :: .word "WHERE" :: k :: .sym '=' :: rest =>
    match identOf D t, identOf D k, parseRef D rest with
    | some t, some k, some ((s, c, _), rest) => some ((t, k, s, c), rest)
    | _, _, _ => none
  | _ => none

/-- `SELECT DISTINCT ct, sel FROM ..` -/
def parseSelect (D : Dialect) : List LTok → Option (Action × List LTok)
  | .word "SELECT" :: .word "DISTINCT" :: n :: .sym ',' :: sel :: rest =>
    match numOf n, identOf D sel, parseFrom D rest with
    | some ct, some c, some ((t, k, s, r), rest) => some (.markSelect ct c t k s r sel.isQuoted, rest)
    | _, _, _ => none
  | _ => none

/-- The rows that an INSERT inserts. -/
def parseRows (D : Dialect) : List LTok → Option (Action × List LTok)
  | .word "VALUES" :: .sym '(' :: n :: .sym ',' :: rest =>
    match numOf n, parseRef D rest with
    | some ct, some ((s, c, q), .sym ')' :: rest) => some (.markValues ct s c q, rest)
    | _, _ => none
  | .sym '(' :: rest =>
    match parseSelect D rest with
    | some (a, .sym ')' :: rest) => some (a, rest)
    | _ => none
  | rest => parseSelect D rest

/-- After `INSERT .. INTO`: the dirty table and its two columns, then the rows. -/
def parseInsert (D : Dialect) : List LTok → Option (Action × List LTok)
  | t :: .sym '(' :: c1 :: .sym ',' :: c2 :: .sym ')' :: rest =>
    if identOf D t = some "denorm_dirtyinstance" ∧ identOf D c1 = some "content_type_id" ∧ identOf D c2 = some "object_id" then parseRows D rest
    else none
  | _ => none

/-- The call of the random number function. -/
def randomToks : Backend → List LTok
  | .sqlite => [.word "RANDOM", .sym '(', .sym ')']
  | .postgresql => [.sym '(', .word "9223372036854775806", .sym ':', .sym ':', .word "INT8", .sym '*', .sym '(', .sym '(', .word "RANDOM", .sym '(', .sym ')',
      .sym '-', .word "0", .sym '.', .word "5", .sym ')', .sym '*', .word "2", .sym '.', .word "0", .sym ')', .sym ')', .sym ':', .sym ':', .word "INT8"]
  | .mysql => [.sym '(', .word "9223372036854775806", .sym '*', .sym '(', .sym '(', .word "RAND", .sym '(', .sym ')',
      .sym '-', .word "0", .sym '.', .word "5", .sym ')', .sym '*', .word "2", .sym '.', .word "0", .sym ')', .sym ')']

def stripPrefix : List LTok → List LTok → Option (List LTok)
  | [], ts => some ts
  | p :: ps, t :: ts => if p = t then stripPrefix ps ts else none
  | _ :: _, [] => none

/-- `1` or `NEW.c` -/
def parseTerm (D : Dialect) : List LTok → Option (Term × List LTok)
  | .word "1" :: rest => some (.one, rest)
  | ts =>
    match parseRef D ts with
    | some ((s, c, _), rest) => some (.ref s c, rest)
    | none => none

/-- The value for column `col`: random, or the column itself plus or minus something. -/
def parseSet (D : Dialect) (col : Col) (ts : List LTok) : Option (SetExpr × List LTok) :=
  match stripPrefix (randomToks D.backend) ts with
  | some rest => some (.random, rest)
  | none =>
    match ts with
    | c :: .sym op :: rest =>
      if identOf D c = some col then
        match parseTerm D rest with
        | some (t, rest) => if op = '+' then some (.plus t, rest) else if op = '-' then some (.minus t, rest) else none
        | none => none
      else none
    | _ => none

/-- `k = NEW.c` or `k IN (SELECT DISTINCT sel FROM t WHERE wk = NEW.c)` -/
def parseKey (D : Dialect) : List LTok → Option (Key × List LTok)
  | k :: .sym '=' :: rest =>
    match identOf D k, parseRef D rest with
    | some k, some ((s, c, _), rest) => some (.eq k s c, rest)
    | _, _ => none
  | k :: .word "IN" :: .sym '(' :: .word "SELECT" :: .word "DISTINCT" :: sel :: rest =>
    match identOf D k, identOf D sel, parseFrom D rest with
    | some k, some sel, some ((t, wk, s, c), .sym ')' :: rest) => some (.inSelect k sel t wk s c, rest)
    | _, _, _ => none
  | _ => none

def lookupOf : List LTok → Option (Lookup × List LTok)
  | .sym '=' :: rest => some (.exact, rest)
  | .sym '>' :: .sym '=' :: rest => some (.gte, rest)
  | .sym '>' :: rest => some (.gt, rest)
  | .sym '<' :: .sym '=' :: rest => some (.lte, rest)
  | .sym '<' :: rest => some (.lt, rest)
  | _ => none

/-- A literal: an integer or a text. A placeholder is none: a trigger cannot have parameters. -/
def parseLit : List LTok → Option (Val × List LTok)
  | .str s :: rest => some (.text s, rest)
  | .sym '-' :: n :: rest => (numOf n).map fun (k : Nat) => (.int (-(k : Int)), rest)
  | n :: rest => (numOf n).map fun (k : Nat) => (.int (k : Int), rest)
  | [] => none

/-- Literals with commas between them. The first argument bounds their number. -/
def parseLits : Nat → List LTok → Option (List Val × List LTok)
  | 0, _ => none
  | n + 1, ts =>
    match parseLit ts with
    | some (v, .sym ',' :: rest) => (parseLits n rest).map fun p => (v :: p.1, p.2)
    | some (v, rest) => some ([v], rest)
    | none => none

/-- What is said about column `c`. -/
def parseTest (c : Col) : List LTok → Option (Filter × List LTok)
  | .word "IS" :: .word "NULL" :: rest => some (.isNull c, rest)
  | .word "IS" :: .word "NOT" :: .word "NULL" :: rest => some (.not (.isNull c), rest)
  | .word "IN" :: .sym '(' :: rest =>
    match parseLits rest.length rest with
    | some (v :: vs, .sym ')' :: rest) => some (.cmp c (.oneOf vs) v, rest)
    | _ => none
  | .word "BETWEEN" :: rest =>
    match parseLit rest with
    | some (v, .word "AND" :: rest) =>
      match parseLit rest with
      | some (hi, rest) => some (.cmp c (.between hi) v, rest)
      | none => none
    | _ => none
  | ts =>
    match lookupOf ts with
    | some (l, rest) =>
      match parseLit rest with
      | some (v, rest) => some (.cmp c l v, rest)
      | none => none
    | none => none

mutual
/-- A condition on the columns of `s`: `NEW.c IS NULL`, `NEW.c IS NOT NULL`, `NEW.c > 3`, `NOT (..)` or `(..)`. The first argument bounds the
nesting. -/
def parseCond (D : Dialect) (s : Side) : Nat → List LTok → Option (Filter × List LTok)
  | 0, _ => none
  | n + 1, .sym '(' :: rest =>
    match parseConds D s n rest with
    | some (f, .sym ')' :: rest) => some (f, rest)
    | _ => none
  | n + 1, .word "NOT" :: .sym '(' :: rest =>
    match parseConds D s n rest with
    | some (f, .sym ')' :: rest) => some (.not f, rest)
    | _ => none
  | _ + 1, ts =>
    match parseRef D ts with
    | some ((s', c, _), rest) =>
      if s' = s then parseTest c rest else none
    | none => none

/-- Conditions joined with AND. -/
def parseConds (D : Dialect) (s : Side) : Nat → List LTok → Option (Filter × List LTok)
  | 0, _ => none
  | n + 1, ts =>
    match parseCond D s n ts with
    | some (f, .word "AND" :: rest) =>
      match parseConds D s n rest with
      | some (g, rest) => some (.and f g, rest)
      | none => none
    | x => x
end

def tokSide : LTok → Option Side
  | .word w => sideOf w
  | _ => none

/-- Some more conditions, each after an AND; a condition is about the row that is named first in it. The first argument bounds their number, the
second their nesting. -/
def parseGuards (D : Dialect) : Nat → Nat → List LTok → Option (List Guard × List LTok)
  | n + 1, m, .word "AND" :: rest =>
    match rest.findSome? tokSide with
    | some s =>
      match parseCond D s m rest with
      | some (f, rest) => (parseGuards D n m rest).map fun p => (.filter s f :: p.1, p.2)
      | none => none
    | none => none
  | _, _, ts => some ([], ts)

/-- After `UPDATE`. -/
def parseUpdate (D : Dialect) : List LTok → Option (Action × List LTok)
  | t :: .word "SET" :: c :: .sym '=' :: rest =>
    match identOf D t, identOf D c with
    | some t, some c =>
      match parseSet D c rest with
      | some (e, .word "WHERE" :: rest) =>
        match parseKey D rest with
        | some (k, rest) =>
          match parseGuards D rest.length rest.length rest with
          | some (gs, .sym ';' :: rest) => some (.update ⟨t, c, e, k, gs⟩, rest)
          | _ => none
        | none => none
      | _ => none
    | _, _ => none
  | _ => none

/-- One statement with its semicolon. `INSERT OR REPLACE`, `INSERT IGNORE` and the block that catches unique violations are plain inserts here, since the
dirty table has no unique constraint (migrations/0001_initial.py). -/
def parseStmt (D : Dialect) : List LTok → Option (Action × List LTok)
  | .word "UPDATE" :: rest => parseUpdate D rest
  | ts =>
    match D.backend, ts with
    | .sqlite, .word "INSERT" :: .word "OR" :: .word "REPLACE" :: .word "INTO" :: rest =>
      match parseInsert D rest with
      | some (a, .sym ';' :: rest) => some (a, rest)
      | _ => none
    | .mysql, .word "INSERT" :: .word "IGNORE" :: .word "INTO" :: rest =>
      match parseInsert D rest with
      | some (a, .sym ';' :: rest) => some (a, rest)
      | _ => none
    | .postgresql, .word "BEGIN" :: .word "INSERT" :: .word "INTO" :: rest =>
      match parseInsert D rest with
      | some (a, .sym ';' :: .word "EXCEPTION" :: .word "WHEN" :: .word "unique_violation" :: .word "THEN" :: .word "END" :: .sym ';' :: rest) =>
        some (a, rest)
      | _ => none
    | _, _ => none

/-- Statements up to the word `stop` (which is left). The first argument bounds their number. -/
def parseStmts (D : Dialect) (stop : String) : Nat → List LTok → Option (List Action × List LTok)
  | 0, _ => none
  | n + 1, ts =>
    if ts.head? = some (.word stop) then some ([], ts)
    else
      match parseStmt D ts with
      | some (a, rest) =>
        match parseStmts D stop n rest with
        | some (as, rest) => some (a :: as, rest)
        | none => none
      | none => none

/-- The tokens of a condition; columns have to be quoted. `==` is sqlite's way to write `=`. -/
def condToks : List LTok → Option (List Tok)
  | [] => some []
  | .sym '(' :: rest => (condToks rest).map (.lp :: ·)
  | .sym ')' :: rest => (condToks rest).map (.rp :: ·)
  | .word "OR" :: rest => (condToks rest).map (.or :: ·)
  | .word "AND" :: rest => (condToks rest).map (.and :: ·)
  | .word "NOT" :: rest => (condToks rest).map (.not :: ·)
  | .word "IS" :: .word "NOT" :: rest => (condToks rest).map (.op .isNot :: ·)
  | .word "IS" :: .word "DISTINCT" :: .word "FROM" :: rest => (condToks rest).map (.op .distinct :: ·)
  | .sym '<' :: .sym '=' :: .sym '>' :: rest => (condToks rest).map (.op .nullSafe :: ·)
  | .sym '=' :: .sym '=' :: rest => (condToks rest).map (.op .eq :: ·)
  | .sym '=' :: rest => (condToks rest).map (.op .eq :: ·)
  | .word "OLD" :: .sym '.' :: .quoted c :: rest => (condToks rest).map (.ref .old c :: ·)
  | .word "NEW" :: .sym '.' :: .quoted c :: rest => (condToks rest).map (.ref .new c :: ·)
  | .word w :: rest =>
    match numOf (.word w) with
    | some n => (condToks rest).map (.num n :: ·)
    | none => none
  | _ => none

/-- Tokens up to the word `stop`, which is removed. -/
def untilWord (stop : String) : List LTok → Option (List LTok × List LTok)
  | [] => none
  | t :: rest =>
    if t = .word stop then some ([], rest)
    else
      match untilWord stop rest with
      | some (a, r) => some (t :: a, r)
      | none => none

def eventOf (w : String) : Option Event :=
  if w = "INSERT" then some .insert else if w = "UPDATE" then some .update else if w = "DELETE" then some .delete else none

/-- A trigger as the database reads it. -/
structure ReadTrigger where
  name : String
  table : TableName
  event : Event
  cond : Option (List Tok)
  actions : List Action
deriving DecidableEq

/-- `CREATE TRIGGER name AFTER event ON table FOR EACH ROW` -/
def parseHead (D : Dialect) : List LTok → Option ((String × TableName × Event) × List LTok)
  | .word "CREATE" :: .word "TRIGGER" :: n :: .word "AFTER" :: .word e :: .word "ON" :: t :: .word "FOR" :: .word "EACH" :: .word "ROW" :: rest =>
    match identOf D n, eventOf e, identOf D t with
    | some n, some e, some t => some ((n, t, e), rest)
    | _, _, _ => none
  | _ => none

/-- The body of a PostgreSQL or MySQL trigger, up to `stop`: statements, or `IF cond THEN statements END IF;`. -/
def parseBody (D : Dialect) (stop : String) (fuel : Nat) : List LTok → Option ((Option (List Tok) × List Action) × List LTok)
  | .word "IF" :: rest =>
    match untilWord "THEN" rest with
    | some (c, rest) =>
      match condToks c, parseStmts D "END" fuel rest with
      | some c, some (as, .word "END" :: .word "IF" :: .sym ';' :: rest) => some ((some c, as), rest)
      | _, _ => none
    | none => none
  | ts =>
    match parseStmts D stop fuel ts with
    | some (as, rest) => some ((none, as), rest)
    | none => none

/-- A whole CREATE TRIGGER text (for PostgreSQL with its function). -/
def parseTrigger (D : Dialect) (ts : List LTok) : Option ReadTrigger :=
  match D.backend with
  | .sqlite =>
    match parseHead D ts with
    | some ((n, t, e), .word "BEGIN" :: rest) =>
      match parseStmts D "END" ts.length rest with
      | some (as, [.word "END", .sym ';']) => some ⟨n, t, e, none, as⟩
      | _ => none
    | some ((n, t, e), .word "WHEN" :: rest) =>
      match untilWord "BEGIN" rest with
      | some (c, rest) =>
        match condToks c, parseStmts D "END" ts.length rest with
        | some c, some (as, [.word "END", .sym ';']) => some ⟨n, t, e, some c, as⟩
        | _, _ => none
      | none => none
    | _ => none
  | .mysql =>
    match parseHead D ts with
    | some ((n, t, e), .word "BEGIN" :: rest) =>
      match parseBody D "END" ts.length rest with
      | some ((c, as), [.word "END", .sym ';']) => some ⟨n, t, e, c, as⟩
      | _ => none
    | _ => none
  | .postgresql =>
    match ts with
    | .word "CREATE" :: .word "OR" :: .word "REPLACE" :: .word "FUNCTION" :: f :: .sym '(' :: .sym ')' :: .word "RETURNS" :: .word "TRIGGER" :: .word "AS" ::
        .sym '$' :: .sym '$' :: .word "BEGIN" :: rest =>
      match parseBody D "RETURN" ts.length rest with
      | some ((c, as), .word "RETURN" :: .word "NULL" :: .sym ';' :: .word "END" :: .sym ';' :: .sym '$' :: .sym '$' :: .word "LANGUAGE" ::
          .word "plpgsql" :: .sym ';' :: rest) =>
        match parseHead D rest with
        | some ((n, t, e), [.word "EXECUTE", .word "PROCEDURE", f', .sym '(', .sym ')', .sym ';']) =>
          match identOf D f, identOf D f' with
          | some g, some g' => if g = g' then some ⟨n, t, e, c, as⟩ else none
          | _, _ => none
        | _ => none
      | _ => none
    | _ => none

end Denorm
