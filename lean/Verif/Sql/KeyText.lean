import Verif.Sql.Db
/-!
# Keys as text

`DirtyInstance.object_id` is a text column (models.py:18). A trigger writes the value of a key column into it, and the database turns it into text; rebuildall() writes
`str(instance.pk)`; flush() turns the text back into a key of the model. A text is a list of characters here.
-/
namespace Denorm

abbrev Txt := List Char

/-- The type of a primary key. Simplification: dates, decimals and the like are not modelled. -/
inductive KeyType where
  /-- AutoField, IntegerField, BigAutoField -/
  | integer
  /-- CharField, SlugField, TextField -/
  | char
  /-- UUIDField -/
  | uuid
deriving DecidableEq, Repr

/-- A hexadecimal digit, in lower case. -/
def hexDigit (d : Fin 16) : Char := if d.val < 10 then Char.ofNat (48 + d.val) else Char.ofNat (87 + d.val)

/-- A UUID is 32 hexadecimal digits. -/
structure Uuid where
  digits : List (Fin 16)
  length : digits.length = 32

/-- `uuid.hex`. -/
def Uuid.hex (u : Uuid) : Txt := u.digits.map hexDigit

/-- `str(uuid)`: 8-4-4-4-12. -/
def Uuid.dashed (u : Uuid) : Txt :=
  let h := u.hex
  h.take 8 ++ '-' :: ((h.drop 8).take 4 ++ '-' :: ((h.drop 12).take 4 ++ '-' :: ((h.drop 16).take 4 ++ '-' :: h.drop 20)))

/-- How a UUIDField's value is stored: `char(32)` on sqlite and MySQL, the type `uuid` on PostgreSQL, which prints it with dashes. (Django's `UUIDField.get_db_prep_value`.) -/
def Uuid.stored (b : Backend) (u : Uuid) : Val :=
  match b with
  | .postgresql => .text (String.ofList u.dashed)
  | _ => .text (String.ofList u.hex)

/-- `str(i)`, and the database's text for an integer. -/
def intText (i : Int) : Txt := if i < 0 then '-' :: Nat.toDigits 10 i.natAbs else Nat.toDigits 10 i.natAbs

/-- What the database stores when a value is inserted into a text column: an implicit cast. -/
def Val.asText : Val → Option Txt
  | .null => none
  | .int i => some (intText i)
  | .text s => some s.toList

/-- One or more digits. -/
def readNat (ds : Txt) : Option Nat := if ds ≠ [] ∧ ds.all Char.isDigit then some (Nat.ofDigitChars 10 ds 0) else none

/-- Python's `int(text)`; `none` is ValueError. Simplification: no blanks, no `+`, no underscores. -/
def readInt : Txt → Option Int
  | '-' :: ds => (readNat ds).map fun n => -(n : Int)
  | ds => (readNat ds).map fun n => (n : Int)

/-- The value of a hexadecimal digit, of either case. -/
def hexValue (c : Char) : Option (Fin 16) :=
  if c.isDigit then some (Fin.ofNat 16 (c.toNat - 48))
  else if 97 ≤ c.toNat ∧ c.toNat ≤ 102 then some (Fin.ofNat 16 (c.toNat - 87))
  else if 65 ≤ c.toNat ∧ c.toNat ≤ 70 then some (Fin.ofNat 16 (c.toNat - 55))
  else none

/-- Python's `uuid.UUID(text)`: dashes are removed, 32 digits must remain; `none` is ValueError. Simplification: no braces and no `urn:uuid:`. -/
def readUuid (s : Txt) : Option Uuid :=
  let ds := (s.filter fun c => c ≠ '-').mapM hexValue
  match ds with
  | none => none
  | some ds => if h : ds.length = 32 then some ⟨ds, h⟩ else none

/-- The value that `get(pk=text)` compares the key column with, `Field.get_db_prep_value(Field.to_python(text))`; `none`: `to_python` raises. -/
def KeyType.read (b : Backend) (τ : KeyType) (s : Txt) : Option Val :=
  match τ with
  | .integer => (readInt s).map .int
  | .char => some (.text (String.ofList s))
  | .uuid => (readUuid s).map (Uuid.stored b)

/-- What rebuildall() writes for an instance whose key column holds `v`: `object_id=instance.pk` (denorms.py:562-565), and TextField turns the key into text by `str()`. -/
def KeyType.pythonText (τ : KeyType) (v : Val) : Option Txt :=
  match τ with
  | .uuid =>
    match v with
    | .text s => (readUuid s.toList).map Uuid.dashed
    | _ => none
  | _ => v.asText

/-- `v` is a value that a key column of this type may hold. -/
def KeyType.Holds (b : Backend) (τ : KeyType) (v : Val) : Prop :=
  match τ with
  | .integer => ∃ i, v = .int i
  | .char => ∃ s, v = .text s
  | .uuid => ∃ u : Uuid, v = u.stored b

end Denorm
