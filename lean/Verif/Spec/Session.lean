import Verif.Code.Session
import Verif.Spec.Flush
/-!
# Other sessions at work while flush() runs
-/
namespace Denorm

/-- The marker whose instance flush() has loaded and not yet finished. -/
def Pc.busy : Pc → Option Mark
  | .saving m _ _ _ _ => some m
  | .inserting m _ _ _ _ => some m
  | .deleting m _ => some m
  | _ => none

/-- The statement with the result `db'` leaves the instance of marker `m` alone: its row is the same as before, and it is not marked (again). -/
structure LeavesAlone (A : App) (m : Mark) (db db' : Db) : Prop where
  row : ∀ om ∈ A.models, om.model.ct = m.ct → ∀ r : Row, r om.model.pk = m.oid → (r ∈ db.rows om.model.table ↔ r ∈ db'.rows om.model.table)
  mark : db'.dirty.count m = db.dirty.count m

/-- What other sessions may do, at every moment of the schedule: execute statements that respect primary keys and many-to-many
constraints (`LegalStmt`), after which keys are still unique and the field is still handled well (`Flushable`: no instance has become related
to itself). And they leave the instance alone that flush() is working on. -/
def Considerate (A : App) (D : List Denorm) (om : OrmModel) (cb : Callback) : List Turn → Pc × Db → Prop
  | [], _ => True
  | .flush :: ts, st => Considerate A D om cb ts (A.turn .flush st)
  | .other s :: ts, st =>
    LegalStmt A.engine cb st.2 s ∧
    (∀ db', A.exec s st.2 = .ok db' → KeysUnique A db' ∧ Flushable A D om cb db' ∧ ∀ m, st.1.busy = some m → LeavesAlone A m st.2 db') ∧
    Considerate A D om cb ts (A.turn (.other s) st)

/-- The ForeignKeys the callback follows are not computed themselves. -/
def Callback.KeysPlain (cb : Callback) (om : OrmModel) : Prop := ∀ d ∈ cb.deps, ∀ c ∈ d.dep.ownKeys, c ∉ om.denormCols

/-- flush() has returned. -/
def Pc.returned : Pc → Bool
  | .done => true
  | _ => false

/-- `k` steps of flush() while no other session does anything. -/
def App.alone (A : App) (k : Nat) (st : Pc × Db) : Pc × Db := A.turns (List.replicate k .flush) st

end Denorm
