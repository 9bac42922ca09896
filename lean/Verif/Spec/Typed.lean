import Verif.Code.Typed
import Verif.Spec.Works
/-!
# Columns that change what they store: what is right
-/
namespace Denorm

/-- The value as the column stores it. -/
def Callback.stored (cb : Callback) (τ : ColumnTypes) (db : Db) (r : Row) : Val := τ cb.model.table cb.field (cb.value db r)

/-- The database contains what its columns store. -/
def Db.Stored (τ : ColumnTypes) (db : Db) : Prop := ∀ t, ∀ r ∈ db.rows t, ∀ c, τ t c (r c) = r c

/-- Types of columns that flush() can live with:
* `twice`: a value that has been stored is stored again as it is,
* `aggregates`: the columns of CountFields and SumFields take every value (C67),
* `numbers`: in the columns `S` numbers stay numbers,
* `own`: a field that is computed from a computed field of the same instance is computed from one whose column takes every value. -/
structure ColumnTypes.Fit (τ : ColumnTypes) (D : List Denorm) (cbs : List Callback) (S : List (TableName × Col)) : Prop where
  twice : ∀ t c v, τ t c (τ t c v) = τ t c v
  aggregates : ∀ a, .aggregate a ∈ D → ∀ v, τ a.model.table a.fieldname v = v
  numbers : ∀ t c, (t, c) ∈ S → ∀ i, ∃ j, τ t c (.int i) = .int j
  own : ∀ cb ∈ cbs, ∀ cb' ∈ cbs, cb'.model.table = cb.model.table → cb'.field ∈ cb.own → ∀ v, τ cb.model.table cb'.field v = v

/-- Everything is right, as far as the columns can hold it: no markers, every `@denormalized` field is what its column makes of the callback's value, aggregates are right. -/
structure StoredRight (τ : ColumnTypes) (D : List Denorm) (cbs : List Callback) (db : Db) : Prop where
  clean : db.dirty = []
  fields : ∀ cb ∈ cbs, ∀ r ∈ db.rows cb.model.table, r cb.field = cb.stored τ db r
  aggregates : ∀ a, .aggregate a ∈ D → ∀ r ∈ db.rows a.model.table, r a.fieldname = .int (a.total db (r a.model.pk))

/-- The database is in order (as `InOrder`): every field is what its column makes of the callback's value, or its instance is marked. -/
structure StoredInOrder (τ : ColumnTypes) (A : App) (D : List Denorm) (cbs : List Callback) (S : List (TableName × Col)) (db : Db) : Prop where
  stored : db.Stored τ
  unique : KeysUnique A db
  known : MarksKnown A db
  keys : ∀ cb ∈ cbs, KeysOk cb db
  marked : ∀ cb ∈ cbs, ∀ r ∈ db.rows cb.model.table, r cb.field = cb.stored τ db r ∨ Marked cb.model db r
  counts : ∀ a, .aggregate a ∈ D → a.agg = .count → AggOk a db
  sums : ∀ a, .aggregate a ∈ D → ∀ f, a.agg = .sum f → AggOk a db ∧ ∀ t, ∀ r ∈ db.rows t, IntRow S t r

/-- What a statement amounts to: the rows it writes as they are stored. -/
def Stmt.typed (τ : ColumnTypes) : Stmt → Stmt
  | .insert t rs => .insert t (rs.map (τ.row t))
  | .update t w σ => .update t w fun x r => τ.row t (σ x r)
  | .delete t w => .delete t w

/-- Statements that, as they are stored, respect keys and write numbers where numbers are summed (as `LegalProgram`). -/
def LegalTyped (τ : ColumnTypes) (A : App) (D : List Denorm) (cbs : List Callback) (S : List (TableName × Col)) (ss : List Stmt) (db : Db) : Prop :=
  LegalProgram A D cbs S (ss.map fun s => .stmt (s.typed τ)) db

end Denorm
