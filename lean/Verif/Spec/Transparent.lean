import Verif.Spec.Declared
/-!
# What a statement does to ordinary data

Independent of the engine and of triggers: the rows that a statement leaves in the tables of a database without triggers.
-/
namespace Denorm

/-- The columns that triggers maintain: CountFields, SumFields and CacheKeyFields. -/
def Maintained (D : List Denorm) (t : TableName) (c : Col) : Prop :=
  ∃ dn ∈ D, dn.model.table = t ∧ dn.fieldname = c ∧
    match dn with
    | .callback .. => False
    | _ => True

/-- The tables after a statement in a database without triggers. -/
def Stmt.alone (s : Stmt) (rows : TableName → List Row) (t : TableName) : List Row :=
  if t = s.table then
    match s with
    | .insert _ rs => rows t ++ rs
    | .update _ w σ => (rows t).map fun r => if w r then σ 0 r else r
    | .delete _ w => (rows t).filter fun r => !w r
  else rows t

/-- The same for a history. -/
def aloneAll : List Stmt → (TableName → List Row) → TableName → List Row
  | [], rows => rows
  | s :: ss, rows => aloneAll ss (s.alone rows)

/-- The rows agree in the columns outside `K`. -/
def Row.Agrees (K : Col → Prop) (r r' : Row) : Prop := ∀ c, ¬ K c → r c = r' c

/-- What the statement writes into other columns, and which rows it deletes, does not depend on the columns `K` (nor on random numbers). The WHERE
of an UPDATE may look at them. -/
def Stmt.Blind (K : Col → Prop) : Stmt → Prop
  | .insert .. => True
  | .update _ _ σ => ∀ x x' r r', Row.Agrees K r r' → Row.Agrees K (σ x r) (σ x' r')
  | .delete _ w => ∀ r r', Row.Agrees K r r' → w r = w r'

/-- Nothing in the statement depends on the columns `K`. -/
def Stmt.FullyBlind (K : Col → Prop) (s : Stmt) : Prop :=
  s.Blind K ∧ match s with
    | .update _ w _ => ∀ r r', Row.Agrees K r r' → w r = w r'
    | _ => True

/-- Table by table and row by row the same data outside the columns `K`. -/
def SameData (K : TableName → Col → Prop) (rows rows' : TableName → List Row) : Prop :=
  ∀ t, (rows t).length = (rows' t).length ∧
    ∀ (i : Nat) (r r' : Row), (rows t)[i]? = some r → (rows' t)[i]? = some r' → Row.Agrees (K t) r r'

/-- Every statement of the history succeeds, the last one leaves `db'`. -/
def Engine.Runs (E : Engine) (fuel : Nat) : List Stmt → Db → Db → Prop
  | [], db, db' => db' = db
  | s :: ss, db, db' => ∃ db1, E.exec fuel s db = .ok db1 ∧ E.Runs fuel ss db1 db'

end Denorm
