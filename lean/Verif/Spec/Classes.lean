import Verif.Code.Classes
/-!
# What importing model classes should give
-/
namespace Denorm

/-- The name `s`, written in model `this`, is a name of the model `m`: `'Name'` for the models of the same app, `'app.Name'` for those of any app; the
case of the model name does not matter. -/
def NameMeans (this : Model) (s : String) (m : Model) : Prop :=
  ('.' ∉ s.toList ∧ m.appLabel = this.appLabel ∧ lower s = lower m.name) ∨
  ('.' ∉ m.appLabel.toList ∧ ∃ n, s = m.appLabel ++ "." ++ n ∧ lower n = lower m.name)

/-- The model that the first argument of depend_on_related means in model `this`, once the models `registered` exist. -/
def Means (registered : List Model) (this : Model) : OtherRef → Model → Prop
  | .cls m, o => o = m
  | .self, o => o = this
  | .name s, o => o ∈ registered ∧ NameMeans this s o ∧ ∀ o' ∈ registered, NameMeans this s o' → o' = o

/-- `dep` is what the declaration `spec` in model `this` should have become: a dependency of `this`, on the model that is meant, through
the relation that `foreign_key` and `type` select. A name that no model has (yet) gives nothing. -/
def DepRight (registered : List Model) (this : Model) (spec : DepSpec) (dep : Option Dep) : Prop :=
  (∃ other r, Means registered this spec.other other ∧ resolvedModel this other spec.fkName spec.type = .ok r ∧
    dep = some ⟨this, other, r, spec.skip⟩) ∨
  ∃ s, spec.other = .name s ∧ (∀ m ∈ registered, ¬ NameMeans this s m) ∧ dep = none

/-- Element by element. -/
def EachRight (registered : List Model) (this : Model) (specs : List DepSpec) (deps : List (Option Dep)) : Prop :=
  deps.length = specs.length ∧
    ∀ (j : Nat) (s : DepSpec) (d : Option Dep), specs[j]? = some s → deps[j]? = some d → DepRight registered this s d

/-- The dependency objects of the denorm object number `i` belong to no other denorm object. -/
def World.Private (w : World) (i : Nat) : Prop :=
  ∀ d, w.denorms[i]? = some d → ∀ i' d', w.denorms[i']? = some d' → i' ≠ i → ∀ a ∈ d.depend, a ∉ d'.depend

/-- The CacheKeyField objects that a statement puts into a class; an inherited field counts for the base and for the subclass. -/
def PyStmt.keyUses : PyStmt → List Nat
  | .keyField _ => []
  | .cls _ _ fields => fields.filterMap fun
    | (_, .key i) => some i
    | (_, .callback _) => none

end Denorm
