import Verif.Spec.Flush
import Verif.Spec.Aggregate
/-!
# What save() should do to CountField, SumField and CacheKeyField
-/
namespace Denorm

def Kind.isAggregate : Kind → Bool
  | .aggregate => true
  | _ => false

def Kind.isCacheKey : Kind → Bool
  | .cacheKey => true
  | _ => false

/-- The columns that save() has something of its own to write to. -/
def OrmModel.otherCols (om : OrmModel) : List Col := (om.saved.filter fun f => !f.kind.isAggregate).map SaveField.col

/-- `UPDATE m SET c = mem.c, .. (for the columns cols) WHERE pk = k`. -/
def updateOnly (m : Model) (k : Val) (cols : List Col) (mem : Row) : Stmt :=
  .update m.table (fun r => Val.sqlEq (r m.pk) k) fun _ r c => if c ∈ cols then mem c else r c

/-- Triggers may rewrite column `c` of table `t` in consequence of saving an instance of `om`, whatever attributes were changed. -/
inductive SaveReached (E : Engine) (om : OrmModel) : TableName → Col → Prop where
  | inserted {tr u} : tr ∈ E.triggers → tr.table = om.model.table → tr.event = .insert → Action.update u ∈ tr.actions →
      SaveReached E om u.table u.col
  | updated {tr u} : tr ∈ E.triggers → tr.table = om.model.table → tr.event = .update →
      (tr.Unconditional ∨ ∃ c ∈ tr.fields, c ∈ om.cols) → Action.update u ∈ tr.actions → SaveReached E om u.table u.col
  | next {t c tr u} : SaveReached E om t c → tr ∈ E.triggers → tr.table = t → tr.event = .update →
      (tr.Unconditional ∨ c ∈ tr.fields) → Action.update u ∈ tr.actions → SaveReached E om u.table u.col

/-- A column of the saved table that triggers leave alone during a save: none of them can reach it, or the database is MySQL, which
refuses to write a table from a trigger while a statement on that table is running. -/
def SaveSafe (E : Engine) (om : OrmModel) (c : Col) : Prop := E.backend = .mysql ∨ ¬ SaveReached E om om.model.table c

/-- save() never writes the primary key, and every column has one field. -/
structure OrmModel.Proper (om : OrmModel) : Prop where
  cols : om.cols.Nodup
  pk : om.model.pk ∉ om.cols

/-- The keys in the model's table are unique. -/
def OrmModel.Unique (om : OrmModel) (db : Db) : Prop := ((db.rows om.model.table).map fun r => r om.model.pk).Nodup

/-- The CountField `a` is one of the aggregate fields of `om` (when they share a table). -/
def OrmModel.Holds (om : OrmModel) (a : AggDenorm) : Prop :=
  om.model.table = a.model.table → om.model.pk = a.model.pk ∧ ∃ f ∈ om.saved, f.col = a.fieldname ∧ f.kind.isAggregate = true

end Denorm
