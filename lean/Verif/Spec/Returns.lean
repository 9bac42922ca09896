import Verif.Spec.Acyclic
/-!
# The same project with another recursion limit
-/
namespace Denorm

/-- The same project on a database whose limit on the work of one statement is `n`. -/
def App.limit (A : App) (n : Nat) : App := { A with fuel := n }

end Denorm
