import Verif.Code.Scripts
import Verif.Spec.Works
/-!
# What is asked of programs with `atomic()` blocks
-/
namespace Denorm

/-- Every call that is executed is legal (`LegalProgram`) at that moment, and instances with `@denormalized` fields are truthy (see C65). -/
def LegalScript (A : App) (D : List Denorm) (cbs : List Callback) (S : List (TableName × Col)) : Script → Db → Prop
  | .skip, _ => True
  | .call c, db => LegalProgram A D cbs S [c] db
  | .calls cs, db => LegalProgram A D cbs S cs db
  | .flush _ _, _ => True
  | .flushWith H _ _, _ => ∀ cb ∈ cbs, ∀ x om r, om.model = cb.model → H.truth x om r = true
  | .raise, _ => True
  | .seq s t, db => LegalScript A D cbs S s db ∧ ∀ db', A.script s db = .done db' → LegalScript A D cbs S t db'
  | .atomic s, db => LegalScript A D cbs S s db
  | .handle s t, db => LegalScript A D cbs S s db ∧ ∀ db', A.script s db = .raised db' → LegalScript A D cbs S t db'

end Denorm
