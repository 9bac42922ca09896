import Verif.Spec.Flush
import Verif.Spec.Aggregate
/-!
# ForeignKeys with `to_field`

A ForeignKey holds the primary key of the row it refers to, or, with `to_field='code'`, the value of another unique column of it. These are the meanings of the
relation in the second case, written without reference to triggers.
-/
namespace Denorm

/-- A `@denormalized` field with one `@depend_on_related` over a ForeignKey whose target column is `to`. The ForeignKey is a field of the model itself, or of the other model
(`backward`). -/
structure Aimed where
  model : Model
  other : Model
  fk : Field
  to : Col
  backward : Bool := false
  field : Col
  skip : List String := []
  own : List Col
  reads : List Col
  fn : List Val → List (List Val) → Val

/-- The rows of the other model that are related to row `r`. -/
def Aimed.related (v : Aimed) (db : Db) (r : Row) : List Row :=
  if v.backward then (db.rows v.other.table).filter fun o => Val.sqlEq (o v.fk.column) (r v.to)
  else (db.rows v.other.table).filter fun o => Val.sqlEq (o v.to) (r v.fk.column)

/-- What the callback returns for row `r`. -/
def Aimed.value (v : Aimed) (db : Db) (r : Row) : Val := v.fn (v.own.map r) (seen v.reads (v.related db r))

def Aimed.Fresh (v : Aimed) (db : Db) (r : Row) : Prop := r v.field = v.value db r

instance aimedDecidableFresh (v : Aimed) (db : Db) (r : Row) : Decidable (v.Fresh db r) := inferInstanceAs (Decidable (_ = _))

/-- Every out-of-date instance has a dirty marker. -/
def Aimed.StaleMarked (v : Aimed) (db : Db) : Prop := ∀ r ∈ db.rows v.model.table, ¬ v.Fresh db r → Marked v.model db r

/-- The model the ForeignKey refers to. -/
def Aimed.target (v : Aimed) : Model := if v.backward then v.model else v.other

/-- The dependency as the library resolves it: it does not look at `to_field`. -/
def Aimed.dep (v : Aimed) : Dep := ⟨v.model, v.other, if v.backward then .backward v.fk else .forward v.fk, []⟩

/-- The field as the other properties see it: the ForeignKey holds primary keys. -/
def Aimed.callback (v : Aimed) : Callback :=
  { model := v.model, field := v.field, skip := v.skip, own := v.own, deps := [⟨v.dep, v.reads⟩], fn := fun own related => v.fn own (related.headD []) }

/-- The field as an entry of `get_alldenorms()`. -/
def Aimed.denorm (v : Aimed) : Denorm := .callback false v.model v.field v.skip [v.dep]

/-- In every row of model `m` the column `to` holds the same value as the primary key (for instance because it is the primary key). -/
def Mirrors (m : Model) (to : Col) (db : Db) : Prop := ∀ o ∈ db.rows m.table, o to = o m.pk

/-- No ForeignKey between row `o` of the other model and a row of the model holds a primary key: as a rule, where the values of the target column are not those of the primary
key. (Both columns are taken to have the same type: PostgreSQL rejects comparisons of columns of different types, so that the statement fails.) -/
def Aimed.Apart (v : Aimed) (db : Db) (o : Row) : Prop :=
  ∀ r ∈ db.rows v.model.table, if v.backward then r v.model.pk ≠ o v.fk.column else r v.fk.column ≠ o v.other.pk

instance aimedDecidableApart (v : Aimed) (db : Db) (o : Row) : Decidable (v.Apart db o) := by unfold Aimed.Apart; infer_instance

/-- Every row that is written satisfies `P`. -/
def Stmt.Keeps (P : Row → Prop) : Stmt → Prop
  | .insert _ rs => ∀ r ∈ rs, P r
  | .update _ _ σ => ∀ x r, P r → P (σ x r)
  | .delete _ _ => True

/-- What a CountField over a ForeignKey with `to_field=to` should hold in row `r`. -/
def AggDenorm.countBy (a : AggDenorm) (to : Col) (db : Db) (r : Row) : Nat :=
  ((db.rows a.related.table).filter fun o => decide (a.Selects (r to) o)).length

/-- Every instance's CountField holds the number of rows that refer to it through column `to`. -/
def CountsBy (a : AggDenorm) (to : Col) (db : Db) : Prop := ∀ r ∈ db.rows a.model.table, r a.fieldname = .int (a.countBy to db r)

end Denorm
