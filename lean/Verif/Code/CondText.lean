import Verif.Sql.Db
/-!
# The text of trigger conditions

The condition as a list of SQL tokens, exactly in the order in which the backends write them, and a parser with SQL's precedence
(NOT binds tighter than AND, AND tighter than OR; a comparison tighter than all of them).
-/
namespace Denorm

inductive CmpOp where
  /-- `IS NOT` (sqlite) -/
  | isNot
  /-- `IS DISTINCT FROM` (PostgreSQL) -/
  | distinct
  /-- `<=>` (MySQL) -/
  | nullSafe
  /-- `=`, in sqlite also `==` -/
  | eq
deriving DecidableEq, Repr

inductive Tok where
  | lp | rp | or | and | not
  | op (o : CmpOp)
  /-- `OLD."c"` or `NEW."c"` -/
  | ref (s : Side) (c : Col)
  | num (n : Nat)
deriving DecidableEq, Repr

/-- `sep.join(parts)` -/
def joinToks (sep : List Tok) : List (List Tok) → List Tok
  | [] => []
  | [p] => p
  | p :: q :: ps => p ++ sep ++ joinToks sep (q :: ps)

/-- `(OLD.f IS NOT NEW.f)` (sqlite3/triggers.py:86), `(OLD.f IS DISTINCT FROM NEW.f)` (postgresql/triggers.py:98),
`(NOT(OLD.f <=> NEW.f))` (mysql/triggers.py:86). Simplification: the PostgreSQL cast to text of columns without a native type is left
out. -/
def changedText (b : Backend) (f : Col) : List Tok :=
  match b with
  | .sqlite => [.lp, .ref .old f, .op .isNot, .ref .new f, .rp]
  | .postgresql => [.lp, .ref .old f, .op .distinct, .ref .new f, .rp]
  | .mysql => [.lp, .not, .lp, .ref .old f, .op .nullSafe, .ref .new f, .rp, .rp]

/-- `(OLD.ctf = ct)` -/
def ctText (s : Side) (ctf : Col) (ct : Nat) : List Tok := [.lp, .ref s ctf, .op .eq, .num ct, .rp]

/-- The condition of sqlite's `WHEN(..)` (sqlite3/triggers.py:83-99), without the outer parentheses; `[]` if there is none. -/
def sqliteCond (event : Event) (fields : List Col) (ctField : Option Col) (ct : Nat) : List (List Tok) :=
  (if event = .update then [[.lp] ++ joinToks [.or] (fields.map (changedText .sqlite)) ++ [.rp]] else []) ++
  match ctField with
  | none => []
  | some c => match event with
    | .delete => [ctText .old c ct]
    | .insert => [ctText .new c ct]
    | .update => [[.lp] ++ ctText .old c ct ++ [.or] ++ ctText .new c ct ++ [.rp]]

/-- The `conditions` list of PostgreSQL (postgresql/triggers.py:87-112). -/
def postgresCond (event : Event) (fields : List Col) (ctField : Option Col) (ct : Nat) : List (List Tok) :=
  (if event = .update then [[.lp] ++ joinToks [.or] (fields.map (changedText .postgresql)) ++ [.rp]] else []) ++
  match ctField with
  | none => []
  | some c => match event with
    | .update => [ctText .old c ct ++ [.or] ++ ctText .new c ct]
    | .insert => [ctText .new c ct]
    | .delete => [ctText .old c ct]

/-- The condition text a backend emits for a trigger; `none` if it emits none. -/
def DbTrigger.condText (b : Backend) (tr : DbTrigger) : Option (List Tok) :=
  match b with
  | .sqlite =>
    -- "AND".join(when); WHEN(%s)
    match sqliteCond tr.event tr.fields tr.ctField tr.ct with
    | [] => none
    | cs => some ([.lp] ++ joinToks [.and] cs ++ [.rp])
  | .postgresql =>
    -- IF " AND ".join(conditions) THEN
    match postgresCond tr.event tr.fields tr.ctField tr.ct with
    | [] => none
    | cs => some (joinToks [.and] cs)
  | .mysql =>
    -- IF " OR ".join(conditions) THEN (mysql/triggers.py:80-97)
    match (if tr.event = .update then tr.fields.map (changedText .mysql) else []) with
    | [] => none
    | cs => some (joinToks [.or] cs)

/-- SQL expressions. -/
inductive SqlExpr where
  | ref (s : Side) (c : Col)
  | num (n : Nat)
  | cmp (o : CmpOp) (a b : SqlExpr)
  | not (a : SqlExpr)
  | and (a b : SqlExpr)
  | or (a b : SqlExpr)
deriving DecidableEq, Repr

inductive Level where
  | or | and | not | cmp | atom
deriving DecidableEq, Repr

/-- Recursive descent parser; the first argument bounds the recursion. Returns the expression and what follows it. -/
def parseAt : Nat → Level → List Tok → Option (SqlExpr × List Tok)
  | 0, _, _ => none
  | n + 1, .or, ts =>
    match parseAt n .and ts with
    | some (a, .or :: rest) =>
      match parseAt n .or rest with
      | some (b, rest') => some (.or a b, rest')
      | none => none
    | x => x
  | n + 1, .and, ts =>
    match parseAt n .not ts with
    | some (a, .and :: rest) =>
      match parseAt n .and rest with
      | some (b, rest') => some (.and a b, rest')
      | none => none
    | x => x
  | n + 1, .not, ts =>
    match ts with
    | .not :: rest =>
      match parseAt n .not rest with
      | some (a, rest') => some (.not a, rest')
      | none => none
    | ts => parseAt n .cmp ts
  | n + 1, .cmp, ts =>
    match parseAt n .atom ts with
    | some (a, .op o :: rest) =>
      match parseAt n .atom rest with
      | some (b, rest') => some (.cmp o a b, rest')
      | none => none
    | x => x
  | n + 1, .atom, ts =>
    match ts with
    | .ref s c :: rest => some (.ref s c, rest)
    | .num k :: rest => some (.num k, rest)
    | .lp :: rest =>
      match parseAt n .or rest with
      | some (e, .rp :: rest') => some (e, rest')
      | _ => none
    | _ => none

/-- The tokens are an expression, namely `e`. -/
def Parses (ts : List Tok) (e : SqlExpr) : Prop := ∃ n, parseAt n .or ts = some (e, [])

/-- The value of a column reference or literal; an expression of another kind has no column value. -/
def SqlExpr.value (ch : Change) : SqlExpr → Val
  | .ref s c => ch.side s c
  | .num n => .int n
  | _ => .null

def CmpOp.eval (o : CmpOp) (a b : Val) : Option Bool :=
  match o with
  | .isNot | .distinct => some (Val.isNot a b)
  | .nullSafe => some (!Val.isNot a b)
  | .eq => Val.eq3 a b

/-- Three-valued truth of a condition. -/
def SqlExpr.eval (ch : Change) : SqlExpr → Option Bool
  | .cmp o a b => o.eval (a.value ch) (b.value ch)
  | .not a => not3 (a.eval ch)
  | .and a b => and3 (a.eval ch) (b.eval ch)
  | .or a b => or3 (a.eval ch) (b.eval ch)
  | .ref .. | .num _ => none

end Denorm
