import Verif.Code.GetTriggers
/-!
# Finding the declarations (denorms.py:66-77)
-/
namespace Denorm

/-- A field of a registered model as `get_alldenorms` looks at it: its `denorm` attribute if there is one. A multi-table child's
`_meta.fields` contains the field objects of the parent, with the parent's `denorm`. -/
structure RegField where
  name : String
  denorm : Option Denorm

/-- A model class in the app registry. `fields` is `_meta.fields`, `m2m` is `_meta.local_many_to_many`. -/
structure RegModel where
  model : Model
  proxy : Bool := false
  fields : List RegField
  m2m : List RegField := []

/-- `get_alldenorms()` (denorms.py:66-77). `swapped m` is `m._meta.swapped` (truthy). -/
def getAlldenorms (swapped : Model → Bool) : List RegModel → List Denorm
  | [] => []
  | m :: ms =>
    (if m.proxy then []
      else m.fields.flatMap fun f =>
        match f.denorm with
        | none => []
        | some dn => if swapped dn.model then [] else [dn]) ++ getAlldenorms swapped ms

end Denorm
