import Verif.Code.GetTriggers
/-!
# Declarations that do not disturb each other

django-denorm merges triggers of the same name and keeps only the first one's watched columns (base.py:164-169).
-/
namespace Denorm

/-- All Trigger objects made for the declarations, in order. -/
def generated (D : List Denorm) : List PyTrigger := D.flatMap Denorm.triggers

/-- Two triggers react to the same changes of the same table. (MySQL's triggers do not look at the content type.) -/
def PyTrigger.agrees (b : Backend) (g g' : PyTrigger) : Prop :=
  g.table = g'.table ∧ g.event = g'.event ∧ g.fields = g'.fields ∧
    (b ≠ .mysql → g.contentTypeField = g'.contentTypeField ∧
      (g.contentTypeField ≠ none → g.contentType = g'.contentType))

instance (b : Backend) (g g' : PyTrigger) : Decidable (g.agrees b g') := by unfold PyTrigger.agrees; infer_instance

/-- Declarations whose triggers share a name agree on what they watch. -/
def AgreeOnWatch (b : Backend) (D : List Denorm) : Prop :=
  ∀ g ∈ generated D, ∀ g' ∈ generated D, g.name b = g'.name b → g.agrees b g'

instance (b : Backend) (D : List Denorm) : Decidable (AgreeOnWatch b D) := by unfold AgreeOnWatch; infer_instance

/-- `g'` reacts whenever `g` does. -/
def PyTrigger.watchesAll (b : Backend) (g' g : PyTrigger) : Prop :=
  g'.table = g.table ∧ g'.event = g.event ∧ (∀ c ∈ g.fields, c ∈ g'.fields) ∧
    (b ≠ .mysql → g'.contentTypeField = g.contentTypeField ∧ (g.contentTypeField ≠ none → g'.contentType = g.contentType)) ∧
    (b = .mysql → g.fields = [] → g'.fields = [])

instance (b : Backend) (g' g : PyTrigger) : Decidable (g'.watchesAll b g) := by unfold PyTrigger.watchesAll; infer_instance

/-- The first declared trigger that has the same name as `g` (it may be `g` itself) watches at least what `g` watches. -/
def Covered (b : Backend) (D : List Denorm) (g : PyTrigger) : Prop :=
  match (generated D).find? (fun g' => g'.name b == g.name b) with
  | some g' => g'.watchesAll b g
  | none => False

instance (b : Backend) (D : List Denorm) (g : PyTrigger) : Decidable (Covered b D g) := by unfold Covered; split <;> infer_instance

end Denorm
