import Verif.Code.Senders
/-!
# The denormalized ManyToManyFields an instance of a class has
-/
namespace Denorm

/-- An instance of the class has the field `f`: its own, or one of a base class. -/
inductive PyClass.Has : PyClass → M2MField → Prop where
  | base : f ∈ own → Has (.base n a own o) f
  | own : f ∈ own → Has (.child n a own o p) f
  | inherited : Has p f → Has (.child n a own o p) f
  | proxy : Has p f → Has (.proxy n p) f

/-- All model classes the class inherits from are abstract. -/
inductive PyClass.AbstractBases : PyClass → Prop where
  | base : AbstractBases (.base n a own o)
  | child : p.abstract = true → AbstractBases p → AbstractBases (.child n a own o p)

end Denorm
