import Verif.Code.Evaluations
import Verif.Spec.Save
/-! # Callback fields of a model -/
namespace Denorm

def Kind.isCallback : Kind → Bool
  | .callback _ => true
  | _ => false

/-- The `@denormalized` fields of a model, in the order in which they are declared. -/
def OrmModel.callbackCols (om : OrmModel) : List Col := (om.saved.filter fun f => f.kind.isCallback).map SaveField.col

/-- The calls that saving the instance of a marker should make: each `@denormalized` field of its model, in the order of declaration. -/
def App.callsFor (A : App) (m : Mark) : List Evaluation :=
  match A.models.find? fun om => om.model.ct == m.ct with
  | some om => om.callbackCols.map fun c => ⟨m, c⟩
  | none => []

end Denorm
