import Verif.Spec.Calls
/-!
# What a program may do with the calls: numbers for SumFields

`S` are the columns that hold numbers: the SumFields and the columns they sum, as in C12.
-/
namespace Denorm

/-- As far as the model goes, its columns in `S` hold numbers: they are columns that save() writes, and a callback that computes one of them always returns a number. -/
structure OrmModel.Numbers (om : OrmModel) (S : List (TableName × Col)) : Prop where
  cols : ∀ c, (om.model.table, c) ∈ S → c ∈ om.cols
  callbacks : ∀ f ∈ om.saved, ∀ cb, f.kind = .callback cb → (om.model.table, f.col) ∈ S → ∀ db r, ∃ i, cb.value db r = .int i

/-- The plain attributes of the instance are numbers where `S` asks for it. -/
def OrmModel.Attrs (om : OrmModel) (S : List (TableName × Col)) (mem : Row) : Prop :=
  ∀ f ∈ om.saved, f.kind = .plain → (om.model.table, f.col) ∈ S → ∃ i, mem f.col = .int i

/-- `CountCall` for a SumField, or any aggregate: the program respects keys as for a CountField, and writes numbers into the columns `S`. (NULL in a summed column: `C12_violated_null`.) -/
def SumCall (A : App) (a : AggDenorm) (S : List (TableName × Col)) (db : Db) : OrmCall → Prop
  | .save om mem => CountCall A a db (.save om mem) ∧ om.Numbers S ∧ om.Attrs S mem
  | .saveFields om cols mem => CountCall A a db (.saveFields om cols mem) ∧ om.Numbers S ∧ (om.restrict cols).Attrs S mem
  | .create om mem k => CountCall A a db (.create om mem k) ∧ om.Numbers S ∧ om.Attrs S mem
  | .bulkCreate om objs => CountCall A a db (.bulkCreate om objs) ∧ om.Numbers S ∧ ∀ o ∈ objs, om.Attrs S o.1
  | .load om mem => CountCall A a db (.load om mem) ∧ IntRow S om.model.table mem
  | .stmt s => AggLegal a S db s

def SumCalls (A : App) (a : AggDenorm) (S : List (TableName × Col)) : List OrmCall → Db → Prop
  | [], _ => True
  | c :: cs, db => SumCall A a S db c ∧
    match A.call db c with
    | .ok db' => SumCalls A a S cs db'
    | .error _ => SumCalls A a S cs db

end Denorm
