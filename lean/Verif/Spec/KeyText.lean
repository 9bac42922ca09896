import Verif.Code.TextFlush
/-!
# Columns that hold keys

Which columns hold keys, and of which type. A column of type `τ` holds NULL or a value of that type, as the database schema demands.
-/
namespace Denorm

/-- The type of a column that holds keys; `none` for other columns. -/
abbrev Typing := TableName → Col → Option KeyType

/-- The values of row `r` of table `t` have the types of their columns. -/
def Row.Fits (b : Backend) (σ : Typing) (t : TableName) (r : Row) : Prop := ∀ c τ, σ t c = some τ → r c = .null ∨ τ.Holds b (r c)

/-- All rows of all tables do. -/
def Db.Fits (b : Backend) (σ : Typing) (db : Db) : Prop := ∀ t, ∀ r ∈ db.rows t, r.Fits b σ t

/-- The statement writes only such rows. -/
def Stmt.Fits (b : Backend) (σ : Typing) : Stmt → Prop
  | .insert t rs => ∀ r ∈ rs, r.Fits b σ t
  | .update t _ f => ∀ x r, r.Fits b σ t → (f x r).Fits b σ t
  | .delete _ _ => True

/-- What a trigger on table `t` writes into the marker table comes from a column with keys of the marked model; what it updates is a column without keys (counts, sums and
cache keys). -/
def Action.Typed (σ : Typing) (keyType : Nat → KeyType) (t : TableName) : Action → Prop
  | .markValues ct _ c _ => σ t c = some (keyType ct)
  | .markSelect ct sel t' _ _ _ _ => σ t' sel = some (keyType ct)
  | .update u => σ u.table u.col = none

/-- What save() computes for a field has the type of the field's column. -/
def SaveField.Typed (b : Backend) (σ : Typing) (t : TableName) (f : SaveField) : Prop :=
  match f.kind with
  | .plain => True
  | .callback cb => ∀ τ, σ t f.col = some τ → ∀ db r, cb.value db r = .null ∨ τ.Holds b (cb.value db r)
  | _ => σ t f.col = none

/-- The project respects the types of its key columns. -/
structure TextApp.Typed (T : TextApp) (σ : Typing) : Prop where
  actions : ∀ tr ∈ T.engine.triggers, ∀ a ∈ tr.actions, a.Typed σ T.keyType tr.table
  fields : ∀ om ∈ T.models, ∀ f ∈ om.saved, f.Typed T.engine.backend σ om.model.table
  /-- the order in which the database returns markers is some order -/
  arrange : ∀ l, (T.arrange l).Perm l

/-- Every marker carries NULL or a key of its model. -/
def TextApp.MarksFit (T : TextApp) (db : Db) : Prop := ∀ m ∈ db.dirty, m.oid = .null ∨ (T.keyType m.ct).Holds T.engine.backend m.oid

/-- The database whose markers are the texts of the keys in `db.dirty`. -/
def Db.disk (db : Db) : Disk := ⟨{ db with dirty := [] }, db.dirty.map Mark.written⟩

/-- The marker that a text stands for. -/
def TextApp.decode (T : TextApp) (m : TextMark) : Mark := ⟨m.ct, (m.oid.bind ((T.keyType m.ct).read T.engine.backend)).getD .null⟩

open Classical in
/-- The same project with keys in its markers: markers come in the same order, random numbers are the same. -/
noncomputable def TextApp.app (T : TextApp) : App :=
  { engine := T.engine, models := T.models, fuel := T.fuel,
    arrange := fun ms => let l := (T.arrange (ms.map Mark.written)).map T.decode; if l.Perm ms then l else ms,
    pyRand := fun db => T.pyRand db.disk }

end Denorm
