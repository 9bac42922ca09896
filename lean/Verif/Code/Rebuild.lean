import Verif.Code.Orm
/-!
# rebuildall() (denorms.py:536-566)
-/
namespace Denorm

/-- The test of denorms.py:545-549. -/
def Denorm.selected (modelName fieldName : Option String) (dn : Denorm) : Bool :=
  (match modelName with
    | none => true
    | some n => n ∈ [dn.model.appLabel, dn.model.name, dn.model.appLabel ++ "." ++ dn.model.name]) &&
  match fieldName with
  | none => true
  | some f => f == dn.fieldname

/-- The keys of the dict `models` (denorms.py:543-550); dicts keep the order of insertion. -/
def rebuildModels (alldenorms : List Denorm) (modelName fieldName : Option String) : List Model :=
  dedup ((alldenorms.filter (Denorm.selected modelName fieldName)).map Denorm.model)

/-- The markers created in denorms.py:553-565: one per row of `model.objects.all()`. Here the manager
returns every row; for other managers see Code/Managers. -/
def rebuildMarks (models : List Model) (db : Db) : List Mark :=
  models.flatMap fun m => (db.rows m.table).map fun r => ⟨m.ct, r m.pk⟩

/-- `rebuildall(model_name=.., field_name=..)`. -/
def App.rebuildall (A : App) (alldenorms : List Denorm) (modelName fieldName : Option String) (n : Nat) (db : Db) :
    Except OrmErr (Option Db) :=
  A.flush n (db.addMarks (rebuildMarks (rebuildModels alldenorms modelName fieldName) db))

end Denorm
