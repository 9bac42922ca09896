import Verif.Code.Reflect
/-!
# What Django lists for a model
-/
namespace Denorm

/-- The field behind an entry, if it is a column of some table. -/
def MetaField.field : MetaField → Option Field
  | column f _ | oneToOne f _ => some f
  | _ => none

/-- `listed` is `_meta.get_fields()` of the model with the given `repr` and fields: the columns are these fields, in their order, and a field is local if it belongs to this very model. The
rest may be anything. -/
def Lists (repr : String) (fields : List Field) (listed : List MetaField) : Prop :=
  listed.filterMap MetaField.field = fields ∧ (∀ e ∈ listed, ∀ f, e.field = some f → (f.isLocal = true ↔ e.owner = repr))

instance Lists.decidable (repr : String) (fields : List Field) (listed : List MetaField) : Decidable (Lists repr fields listed) := by
  have : Decidable (∀ e ∈ listed, ∀ f, e.field = some f → (f.isLocal = true ↔ e.owner = repr)) :=
    decidable_of_iff (∀ e ∈ listed, (match e.field with | some f => decide (f.isLocal = true ↔ e.owner = repr) | none => true) = true) (by
      constructor
      · intro h e he f hf
        have := h e he
        rw [hf] at this
        exact of_decide_eq_true this
      · intro h e he
        cases hf : e.field with
        | none => rfl
        | some f => exact decide_eq_true (h e he f hf))
  unfold Lists
  infer_instance

/-- A OneToOneField of another model points to this very model, as that of a multi-table child does. -/
def HasOneToOneRel (repr : String) (listed : List MetaField) : Prop := ∃ n, MetaField.oneToOneRel n repr ∈ listed

end Denorm
