import Verif.Code.Calls
import Verif.Spec.Legal
import Verif.Spec.Save
/-!
# What a program may do with the calls
-/
namespace Denorm

/-- A row with primary key `k` may be inserted for model `om`: the key is not NULL, and no link of a many-to-many relation points to it yet. -/
def NewKey (E : Engine) (cb : Callback) (db : Db) (om : OrmModel) (k : Val) : Prop :=
  ∀ r : Row, r om.model.pk = k → LegalStmt E cb db (.insert om.model.table [r])

/-- The instance is in the database. -/
def InDatabase (om : OrmModel) (mem : Row) (db : Db) : Prop := ∃ r ∈ db.rows om.model.table, r om.model.pk = mem om.model.pk ∧ mem om.model.pk ≠ .null

/-- The program respects primary keys and many-to-many constraints (see `LegalStmt`). It may give attributes any values, name any fields in `update_fields`, and load
any fixture. -/
def LegalCall (A : App) (cb : Callback) (db : Db) : OrmCall → Prop
  | .save om mem => om ∈ A.models ∧ (¬ InDatabase om mem db → NewKey A.engine cb db om (mem om.model.pk))
  | .saveFields om _ _ => om ∈ A.models
  | .create om _ k => NewKey A.engine cb db om k
  | .bulkCreate om objs => ∀ o ∈ objs, NewKey A.engine cb db om o.2
  | .load om mem => om ∈ A.models ∧ (¬ InDatabase om mem db → NewKey A.engine cb db om (mem om.model.pk))
  | .stmt s => LegalStmt A.engine cb db s

/-- Every call is legal at the moment it is made. -/
def LegalCalls (A : App) (cb : Callback) : List OrmCall → Db → Prop
  | [], _ => True
  | c :: cs, db => LegalCall A cb db c ∧
    match A.call db c with
    | .ok db' => LegalCalls A cb cs db'
    | .error _ => LegalCalls A cb cs db

/-- The same for a CountField. A new instance of the counted model has no related objects yet, nor do those of one `bulk_create` refer to each other. Fixtures may not contain instances
with a CountField (C63). -/
def CountCall (A : App) (a : AggDenorm) (db : Db) : OrmCall → Prop
  | .save om mem => om.Proper ∧ om.Holds a ∧ om.Unique db ∧ mem om.model.pk ≠ .null
  | .saveFields om _ mem => om.Proper ∧ om.Holds a ∧ om.Unique db ∧ mem om.model.pk ≠ .null
  | .create om _ k => om.Proper ∧ om.Holds a ∧ (om.model.table = a.model.table → ∀ o ∈ db.rows a.related.table, ¬ Val.sqlEq (o a.fk.column) k = true)
  | .bulkCreate om objs => om.Proper ∧ om.Holds a ∧ (om.model.table = a.model.table → a.related.table ≠ a.model.table ∧
      ∀ k ∈ objs.map Prod.snd, ∀ o ∈ db.rows a.related.table, ¬ Val.sqlEq (o a.fk.column) k = true)
  | .load om _ => om.model.table ≠ a.model.table
  | .stmt s => CountLegal a db s

def CountCalls (A : App) (a : AggDenorm) : List OrmCall → Db → Prop
  | [], _ => True
  | c :: cs, db => CountCall A a db c ∧
    match A.call db c with
    | .ok db' => CountCalls A a cs db'
    | .error _ => CountCalls A a cs db

end Denorm
