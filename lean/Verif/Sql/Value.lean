/-!
# SQL values, rows, three-valued comparison, filters

The part of SQL's expression language that django-denorm's triggers use.
-/
namespace Denorm

/-- A column value. Simplification: integers and text only (dates, booleans and the like behave as one of the two);
an integer never equals a text (real backends may coerce, but the code only ever compares a key with a key). -/
inductive Val where
  | null
  | int (i : Int)
  | text (s : String)
deriving DecidableEq, Repr, Inhabited

abbrev Col := String
abbrev TableName := String

/-- A row: every column name has a value; columns the table does not have are never looked at. -/
abbrev Row := Col → Val

/-- `row` with column `c` set to `v` (one `SET c = v`). -/
def Row.set (r : Row) (c : Col) (v : Val) : Row := fun c' => if c' = c then v else r c'

/-- SQL `a = b`: UNKNOWN (`none`) when either side is NULL. -/
def Val.eq3 : Val → Val → Option Bool
  | .null, _ => none
  | _, .null => none
  | a, b => some (decide (a = b))

/-- A `WHERE a = b` lets a row through iff `a = b` is TRUE. -/
def Val.sqlEq (a b : Val) : Bool := Val.eq3 a b == some true

/-- Null-safe inequality: sqlite `a IS NOT b` (sqlite3/triggers.py:86), PostgreSQL `a IS DISTINCT FROM b`
(postgresql/triggers.py:96-98), MySQL `NOT(a <=> b)` (mysql/triggers.py:86). -/
def Val.isNot (a b : Val) : Bool := decide (a ≠ b)

/-- SQL `a + b`: NULL if either side is NULL. Simplification: text operands give NULL; the columns involved
are integer columns. -/
def Val.add : Val → Val → Val
  | .int a, .int b => .int (a + b)
  | _, _ => .null

/-- SQL `a - b`. -/
def Val.sub : Val → Val → Val
  | .int a, .int b => .int (a - b)
  | _, _ => .null

/-- SQL AND on three-valued truth. -/
def and3 : Option Bool → Option Bool → Option Bool
  | some false, _ => some false
  | _, some false => some false
  | some true, b => b
  | none, _ => none

/-- SQL OR on three-valued truth. -/
def or3 : Option Bool → Option Bool → Option Bool
  | some true, _ => some true
  | _, some true => some true
  | some false, b => b
  | none, _ => none

/-- SQL NOT on three-valued truth. -/
def not3 : Option Bool → Option Bool
  | some b => some (!b)
  | none => none

/-- Comparison lookups of a Django filter (`name`, `name__exact`, `name__gt`, `name__gte`, `name__lt`, `name__lte`, `name__in`, `name__range`). The
value of a condition is the first one of a list or range, the lookup has the others; for the empty list see `Code/EmptyList.lean`.
Other lookups (contains, regex, ...) are not modelled. -/
inductive Lookup where
  | exact | gt | gte | lt | lte
  | oneOf (more : List Val)
  | between (hi : Val)
deriving DecidableEq, Repr

/-- The values besides the first one. -/
def Lookup.more : Lookup → List Val
  | .oneOf vs => vs
  | .between hi => [hi]
  | _ => []

/-- `a < b`; text by character codes. A text and an integer are never compared by the code; then the answer here is no. -/
def Val.lt : Val → Val → Bool
  | .int a, .int b => decide (a < b)
  | .text a, .text b => decide (a < b)
  | _, _ => false

/-- `a <lookup> b`: UNKNOWN if either side is NULL. `IN` is UNKNOWN if nothing in the list is equal and there is a NULL in it. -/
def Lookup.eval : Lookup → Val → Val → Option Bool
  | _, .null, _ => none
  | _, _, .null => none
  | .exact, a, b => some (decide (a = b))
  | .gt, a, b => some (Val.lt b a)
  | .gte, a, b => some (Val.lt b a || decide (a = b))
  | .lt, a, b => some (Val.lt a b)
  | .lte, a, b => some (Val.lt a b || decide (a = b))
  | .oneOf vs, a, b => if a ∈ b :: vs then some true else if .null ∈ vs then none else some false
  | .between hi, a, b => and3 (some (Val.lt b a || decide (a = b))) (match hi with
    | .null => none
    | hi => some (Val.lt a hi || decide (a = hi)))

/-- Boolean expressions on one row: what Django's `Q` objects compile to. -/
inductive Filter where
  | tt
  | cmp (c : Col) (l : Lookup) (v : Val)
  | isNull (c : Col)
  | and (a b : Filter)
  | not (a : Filter)
deriving DecidableEq, Repr

def Filter.eval : Filter → Row → Option Bool
  | .tt, _ => some true
  | .cmp c l v, r => l.eval (r c) v
  | .isNull c, r => some (decide (r c = .null))
  | .and a b, r => and3 (a.eval r) (b.eval r)
  | .not a, r => not3 (a.eval r)

/-- The row passes a `WHERE f`. -/
def Filter.holds (f : Filter) (r : Row) : Bool := f.eval r == some true

end Denorm
