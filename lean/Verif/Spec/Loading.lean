import Verif.Spec.Classes
import Verif.Code.Loading
/-!
# What importing models should give, whatever the order
-/
namespace Denorm

/-- The classes of a program that are not abstract. -/
def concrete (ss : List ModStmt) : List ClassSrc := ss.filterMap fun
  | .cls c => if c.abstract then none else some c
  | .aggField _ => none

/-- The relation field `attname` of `x` leads to `y`. -/
def Model.PointsTo (x : Model) (attname : String) (y : Model) : Prop :=
  (∃ f ∈ x.fields, f.attname = attname ∧ ∃ t, f.target = some t ∧ lower t = lower y.repr) ∨
  (∃ f ∈ x.m2ms, f.attname = attname ∧ lower f.target = lower y.repr) ∨
  ∃ g ∈ x.privates, g.attname = attname ∧ ∃ t, g.target = some t ∧ lower t = lower y.repr

/-- The dependencies that are declared in a class: the field, the position, the arguments. -/
def ClassSrc.Declares (c : ClassSrc) (n : Col) (j : Nat) (spec : DepSpec) : Prop := ∃ f, (n, f) ∈ c.callbacks ∧ f.depends[j]? = some spec

/-- A relation from `c` to `y` is written with the name of `y` (`ForeignKey('app.Y')`), not with the class or with `'self'`. -/
def ClassSrc.WrittenByName (c : ClassSrc) (y : Model) : Prop := ∃ r ∈ c.rels, ∃ s, r.to = .name s ∧ c.model.PointsTo r.attname y

/-- The classes are what Python and Django allow: different labels and different `repr`s, which look like `<class '..'>`; field names of a class are different; a class that
is given to depend_on_related exists; and a relation that is written with a name leads to the model with this name. -/
structure WellFormed (ss : List ModStmt) : Prop where
  keys : ((concrete ss).map fun c => c.model.regKey).Nodup
  reprs : ∀ c ∈ concrete ss, ∀ d ∈ concrete ss, c.model.repr = d.model.repr → c.model = d.model
  angle : ∀ c ∈ concrete ss, c.model.repr.toList.head? = some '<'
  names : ∀ c ∈ concrete ss, (c.callbacks.map (·.1)).Nodup
  exist : ∀ c ∈ concrete ss, ∀ n j spec, c.Declares n j spec → ∀ o, spec.other = .cls o → ∃ d ∈ concrete ss, d.model = o
  written : ∀ c ∈ concrete ss, ∀ r ∈ c.rels, ∀ s, r.to = .name s → ∀ d ∈ concrete ss, c.model.PointsTo r.attname d.model → NameMeans c.model s d.model

/-- The relations between two models are known when the dependency between them is looked at.
* A dependency on `'self'`, or on a class: no relation between the two is written with a name.
* A dependency on a name: the relations of this class may be written as one likes, those of the other class only if it is imported first. -/
structure InTime (ss : List ModStmt) : Prop where
  self : ∀ c ∈ concrete ss, ∀ n j spec, c.Declares n j spec → spec.other = .self → ¬ c.WrittenByName c.model
  cls : ∀ c ∈ concrete ss, ∀ n j spec, c.Declares n j spec → ∀ o, spec.other = .cls o →
    ¬ c.WrittenByName o ∧ ∀ d ∈ concrete ss, d.model = o → ¬ d.WrittenByName c.model
  name : (concrete ss).Pairwise fun c d => ∀ n j spec, c.Declares n j spec → ∀ s, spec.other = .name s → NameMeans c.model s d.model → ¬ d.WrittenByName c.model

/-- Each dependency on a model of the program has exactly one relation to follow (see C29). -/
def Resolvable (cs : List ClassSrc) : Prop :=
  ∀ c ∈ cs, ∀ n j spec, c.Declares n j spec → ∀ o, Means (cs.map (·.model)) c.model spec.other o → ∃ r, resolvedModel c.model o spec.fkName spec.type = .ok r

/-- The CountField and SumField objects that a program makes, by the names of their managers. -/
def objects (ss : List ModStmt) : List String := ss.filterMap fun
  | .aggField n => some n
  | .cls _ => none

/-- The class has the field object number `i`. -/
def ClassSrc.Uses (c : ClassSrc) (i : Nat) : Prop := ∃ n, (n, i) ∈ c.aggregates

end Denorm
