import Verif.Code.Views
import Verif.Spec.Scripts
/-!
# Sequences of requests
-/
namespace Denorm

/-- Instances with `@denormalized` fields are truthy (see C65). -/
def Hooks.Truthy (H : Hooks) (cbs : List Callback) : Prop := ∀ cb ∈ cbs, ∀ x om r, om.model = cb.model → H.truth x om r = true

/-- Requests have been answered, one after the other; their views made legal calls only. Each flush() may have returned, or raised. -/
inductive Served (A : App) (D : List Denorm) (cbs : List Callback) (S : List (TableName × Col)) (db : Db) : Db → Prop where
  | start : Served A D cbs S db db
  | request {d d' : Db} {r : WebRequest} {H : Hooks} {n k : Nat} : Served A D cbs S db d → LegalScript A D cbs S r.view d → H.Truthy cbs → A.script (r.script H n k) d = .done d' →
      Served A D cbs S db d'

end Denorm
