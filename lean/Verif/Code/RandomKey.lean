import Verif.Code.SqlText
/-!
# The numbers that renew a cache key

In the other parts of the model the random numbers are an arbitrary oracle. Here the expressions that the triggers contain are evaluated, in the floating point arithmetic of
the database.
-/
namespace Denorm

/-- Arithmetic of the database: rounding of a real result to a double, and of a double to an integer. What is assumed of it holds for IEEE 754 doubles, rounded to nearest: both are monotone; multiples of 2^-53
up to 1, 2, and multiples of 2^10 up to 2^63, are doubles; 9223372036854775806 is 2 less than the double 2^63, and 1022 more than the one before. -/
structure Fpu where
  rnd : Rat → Rat
  rint : Rat → Int
  mono : ∀ {x y}, x ≤ y → rnd x ≤ rnd y
  small : ∀ m : Int, -2 ^ 53 ≤ m → m ≤ 2 ^ 53 → rnd (m / 2 ^ 53) = m / 2 ^ 53
  big : ∀ m : Int, -2 ^ 53 ≤ m → m ≤ 2 ^ 53 → rnd (m * 2 ^ 10) = m * 2 ^ 10
  two : rnd 2 = 2
  near : rnd 9223372036854775806 = 2 ^ 63
  rintMono : ∀ {x y}, x ≤ y → rint x ≤ rint y
  rintInt : ∀ m : Int, rint m = m

/-- The terms in `RandomBigInt.sql`. -/
inductive RTerm where
  | int (n : Nat) (cast : String)
  | half
  | two
  | random (fn : String)
  | sub (a b : RTerm)
  | mul (a b : RTerm) (sep : String) (close : String)
deriving DecidableEq, Repr

def RTerm.text : RTerm → String
  | .int n cast => toString n ++ cast
  | .half => "0.5"
  | .two => "2.0"
  | .random fn => fn ++ "()"
  | .sub a b => "(" ++ a.text ++ "-" ++ b.text ++ ")"
  | .mul a b sep close => "(" ++ a.text ++ sep ++ b.text ++ close

/-- Value of a term, in double arithmetic; `x` is what the random number function returns. -/
def RTerm.eval (F : Fpu) (x : Rat) : RTerm → Rat
  | .int n _ => F.rnd n
  | .half => F.rnd (1 / 2)
  | .two => F.rnd 2
  | .random _ => x
  | .sub a b => F.rnd (a.eval F x - b.eval F x)
  | .mul a b _ _ => F.rnd (a.eval F x * b.eval F x)

/-- `RandomBigInt.sql` (postgresql/triggers.py:6-8, mysql/triggers.py:6-8; on sqlite it is the function itself, sqlite3/triggers.py:10-12). -/
def randomTerm : Backend → RTerm
  | .sqlite => .random "RANDOM"
  | .postgresql => .mul (.int 9223372036854775806 "::INT8") (.mul (.sub (.random "RANDOM") .half) .two "*" ")") " * " " )"
  | .mysql => .mul (.int 9223372036854775806 "") (.mul (.sub (.random "RAND") .half) .two "*" ")") " * " " )"

/-- `::INT8` at the end of PostgreSQL's expression. -/
def randomCast : Backend → String
  | .postgresql => "::INT8"
  | _ => ""

/-- The number is stored in a BIGINT column: rounded to an integer, refused if it does not fit ("bigint out of range"; MySQL in strict mode). -/
def storeBigint (F : Fpu) (v : Rat) : Option Int :=
  if -2 ^ 63 ≤ F.rint v ∧ F.rint v < 2 ^ 63 then some (F.rint v) else none

/-- What the random number functions return, depending on the state of their generator: sqlite's RANDOM() any 64 bit integer, PostgreSQL's RANDOM() a multiple of 2^-53 from 0 to 1 (older
versions: of 2^-31 or 2^-48), MySQL's RAND() an integer divided by 2^30 - 1, in double arithmetic (my_rnd). -/
def randomCall (F : Fpu) : Backend → Int → Rat
  | .sqlite, k => k
  | .postgresql, k => k / 2 ^ 53
  | .mysql, k => F.rnd (k / 1073741823)

/-- The states of the generator: 1 is never returned. -/
def Draw : Backend → Int → Prop
  | .sqlite, k => -2 ^ 63 ≤ k ∧ k < 2 ^ 63
  | .postgresql, k => 0 ≤ k ∧ k < 2 ^ 53
  | .mysql, k => 0 ≤ k ∧ k < 1073741823

/-- The trigger's `SET key = RandomBigInt` on one row. -/
def newKey (F : Fpu) (b : Backend) (k : Int) : Option Int := storeBigint F ((randomTerm b).eval F (randomCall F b k))

/-- `random.randint(-9223372036854775808, 9223372036854775807)` (denorms.py:210-211): both ends are possible. -/
def pyKey (k : Int) : Prop := -9223372036854775808 ≤ k ∧ k ≤ 9223372036854775807

end Denorm
