import Verif.Spec.Reflect
/-!
# The fields of a trigger, as Django lists them (C48)
-/
namespace Denorm

theorem modelFields_cons (model : String) (e : MetaField) (listed : List MetaField) (skip : List String) : modelFields model (e :: listed) skip =
    if !e.isRelation || e.isOneToOne || e.isManyToOne then
      if e.isRel then modelFields model listed skip
      else if e.owner ≠ model then modelFields model listed skip
      else match e.attname with
        | some a => if skip.contains a then modelFields model listed skip else (modelFields model listed skip).map (a :: ·)
        | none => .error ⟨e⟩
    else modelFields model listed skip := by
  unfold modelFields getFieldsWithModel
  rw [List.filter_cons]
  by_cases hc : (!e.isRelation || e.isOneToOne || e.isManyToOne) = true
  · rw [if_pos hc, if_pos hc, List.map_cons, List.foldr_cons]
    simp only
    by_cases ho : e.owner = model
    · simp only [ho, ne_eq, not_true_eq_false, if_false]
      try rfl
    · simp only [ho, ne_eq, not_false_eq_true, if_true]
  · rw [if_neg hc, if_neg hc]

theorem genericFields_cons (model : String) (e : MetaField) (listed : List MetaField) : genericFields model (e :: listed) =
    if !e.isRelation || e.isOneToOne || e.isManyToOne then
      if e.owner ≠ model then genericFields model listed
      else match e.attname with
        | some a => (genericFields model listed).map (a :: ·)
        | none => .error ⟨e⟩
    else genericFields model listed := by
  unfold genericFields getFieldsWithModel
  rw [List.filter_cons]
  by_cases hc : (!e.isRelation || e.isOneToOne || e.isManyToOne) = true
  · rw [if_pos hc, if_pos hc, List.map_cons, List.foldr_cons]
    simp only
    by_cases ho : e.owner = model
    · simp only [ho, ne_eq, not_true_eq_false, if_false]
      try rfl
    · simp only [ho, ne_eq, not_false_eq_true, if_true]
  · rw [if_neg hc, if_neg hc]

theorem Lists.tail {repr : String} {e : MetaField} {listed : List MetaField} {fields : List Field} (h : Lists repr fields (e :: listed)) :
    Lists repr (listed.filterMap MetaField.field) listed := ⟨rfl, fun e' he' => h.2 e' (List.mem_cons_of_mem _ he')⟩

theorem modelFields_eq {repr : String} {skip : List String} : ∀ {listed : List MetaField} {fields : List Field}, Lists repr fields listed →
    modelFields repr listed skip = .ok (((fields.filter (·.isLocal)).map (·.attname)).filter fun a => !skip.contains a)
  | [], fields, h => by
    rw [← h.1]
    rfl
  | e :: listed, fields, h => by
    have ih := modelFields_eq (skip := skip) h.tail
    rw [← h.1, modelFields_cons]
    have key : ∀ (f : Field), e.field = some f → e.isRel = false → (!e.isRelation || e.isOneToOne || e.isManyToOne) = true → e.attname = some f.attname →
        (if !e.isRelation || e.isOneToOne || e.isManyToOne then
          if e.isRel then modelFields repr listed skip
          else if e.owner ≠ repr then modelFields repr listed skip
          else match e.attname with
            | some a => if skip.contains a then modelFields repr listed skip else (modelFields repr listed skip).map (a :: ·)
            | none => .error ⟨e⟩
        else modelFields repr listed skip) = .ok ((((((e :: listed).filterMap MetaField.field)).filter (·.isLocal)).map (·.attname)).filter fun a => !skip.contains a) := by
      intro f h1 h2 h3 h4
      rw [if_pos h3, h2, if_neg (by simp), h4, ih, List.filterMap_cons, h1]
      have hl := h.2 e (by simp) f h1
      simp only [List.filter_cons]
      by_cases ho : e.owner = repr
      · rw [if_neg (by simp [ho]), if_pos (hl.2 ho), List.map_cons, List.filter_cons]
        by_cases hs : skip.contains f.attname = true
        · rw [if_pos hs, if_neg (by rw [hs]; simp)]
        · rw [if_neg hs, if_pos (by simpa using hs)]
          rfl
      · rw [if_pos ho, if_neg (fun g => ho (hl.1 g))]
    cases e with
    | column f o =>
      refine key f rfl rfl ?_ rfl
      cases ht : f.target <;> simp [MetaField.isRelation, MetaField.isManyToOne, ht]
    | oneToOne f o => exact key f rfl rfl rfl rfl
    | manyToMany f o => exact ih
    | genericRelation g o => exact ih
    | genericForeignKey n o => exact ih
    | manyToOneRel n o => exact ih
    | oneToOneRel n o => exact ih
    | manyToManyRel n o => exact ih

theorem genericFields_eq {repr : String} : ∀ {listed : List MetaField} {fields : List Field}, Lists repr fields listed → ¬ HasOneToOneRel repr listed →
    genericFields repr listed = .ok ((fields.filter (·.isLocal)).map (·.attname))
  | [], fields, h, _ => by
    rw [← h.1]
    rfl
  | e :: listed, fields, h, hno => by
    have ih := genericFields_eq h.tail fun ⟨n, hn⟩ => hno ⟨n, List.mem_cons_of_mem _ hn⟩
    rw [← h.1, genericFields_cons]
    have key : ∀ (f : Field), e.field = some f → (!e.isRelation || e.isOneToOne || e.isManyToOne) = true → e.attname = some f.attname →
        (if !e.isRelation || e.isOneToOne || e.isManyToOne then
          if e.owner ≠ repr then genericFields repr listed
          else match e.attname with
            | some a => (genericFields repr listed).map (a :: ·)
            | none => .error ⟨e⟩
        else genericFields repr listed) = .ok ((((e :: listed).filterMap MetaField.field).filter (·.isLocal)).map (·.attname)) := by
      intro f h1 h3 h4
      rw [if_pos h3, h4, ih, List.filterMap_cons, h1]
      have hl := h.2 e (by simp) f h1
      simp only [List.filter_cons]
      by_cases ho : e.owner = repr
      · rw [if_neg (by simp [ho]), if_pos (hl.2 ho)]
        rfl
      · rw [if_pos ho, if_neg (fun g => ho (hl.1 g))]
    cases e with
    | column f o =>
      refine key f rfl ?_ rfl
      cases ht : f.target <;> simp [MetaField.isRelation, MetaField.isManyToOne, ht]
    | oneToOne f o => exact key f rfl rfl rfl
    | manyToMany f o => exact ih
    | genericRelation g o => exact ih
    | genericForeignKey n o => exact ih
    | manyToOneRel n o => exact ih
    | oneToOneRel n o =>
      have ho : o ≠ repr := fun e => hno ⟨n, by simp [e]⟩
      rw [if_pos (by rfl), if_pos (by exact ho)]
      exact ih
    | manyToManyRel n o => exact ih

theorem genericFields_error {repr : String} : ∀ {listed : List MetaField}, HasOneToOneRel repr listed → ∃ e, genericFields repr listed = .error e
  | [], ⟨n, h⟩ => by cases h
  | e :: listed, ⟨n, h⟩ => by
    rw [genericFields_cons]
    split
    · split
      · next ho =>
        refine genericFields_error ⟨n, (List.mem_cons.1 h).resolve_left fun he => ?_⟩
        rw [← he] at ho
        exact ho rfl
      · split
        · next a ha =>
          obtain ⟨x, hx⟩ := genericFields_error (repr := repr) (listed := listed) ⟨n, (List.mem_cons.1 h).resolve_left fun he => by rw [← he] at ha; cases ha⟩
          exact ⟨x, by rw [hx]; rfl⟩
        · exact ⟨_, rfl⟩
    · next hs =>
      refine genericFields_error ⟨n, (List.mem_cons.1 h).resolve_left fun he => ?_⟩
      rw [← he] at hs
      exact hs rfl

section
variable {listed : List MetaField} {event : Event} {actions : List Action} {ct : Nat} {skip : List String}

/-- C48, the fields of the triggers: on a model's table, `Trigger.__init__` finds in Django's list the fields that Code/Trigger says, whatever else leads from or to the model. -/
theorem C48_reflected_model {m : Model} (h : Lists m.repr m.fields listed) :
    reflectTrigger listed (.model m) event actions ct skip = .ok (mkTrigger (.model m) event actions ct skip) := by
  simp only [reflectTrigger, modelFields_eq h]
  rfl

/-- C48, on the table that a GenericRelation leads to: it finds them if and only if no OneToOneField of another model points to that model; otherwise AttributeError is raised, and no trigger of the project
is installed. -/
theorem C48_reflected_generic_partial {g : GenericRel} {t : String} {fields : List Field} (ht : g.target = some t) (h : Lists t fields listed) (hf : g.remoteFields = (fields.filter (·.isLocal)).map (·.attname)) :
    reflectTrigger listed (.generic g) event actions ct skip = .ok (mkTrigger (.generic g) event actions ct skip) ↔ ¬ HasOneToOneRel t listed := by
  constructor
  · intro he hh
    obtain ⟨e, h1⟩ := genericFields_error hh
    simp only [reflectTrigger, ht, Option.getD_some, h1] at he
    cases he
  · intro hno
    simp only [reflectTrigger, ht, Option.getD_some, genericFields_eq h hno, mkTrigger, hf]
    rfl

end

namespace ReflectDemo

/-- A model with tags, and what `get_fields()` says of the tags: `TextTag(Tag)` is a multi-table child. -/
def tagFields : List Field :=
  [{ name := "id", attname := "id", column := "id" }, { name := "name", attname := "name", column := "name" },
    { name := "content_type", attname := "content_type_id", column := "content_type_id", target := some "<class 'ContentType'>" },
    { name := "object_id", attname := "object_id", column := "object_id" }]

def tagRepr : String := "<class 'app.models.Tag'>"

def tags : GenericRel := ⟨"tags", some tagRepr, "object_id", "content_type", "app_tag", "id", ["id", "name", "content_type_id", "object_id"]⟩

def tagMeta : List MetaField := tagFields.map (MetaField.column · tagRepr) ++ [.genericForeignKey "content_object" tagRepr]

def tagMetaChild : List MetaField := .oneToOneRel "texttag" tagRepr :: tagMeta

end ReflectDemo

open ReflectDemo in
/-- C48 is violated by a GenericRelation to a model with a multi-table child: the model is fine by itself, with the child AttributeError is raised. -/
theorem C48_violated_generic : Lists tagRepr tagFields tagMetaChild ∧
    reflectTrigger tagMeta (.generic tags) .update [] 1 [] = .ok (mkTrigger (.generic tags) .update [] 1 []) ∧
    reflectTrigger tagMetaChild (.generic tags) .update [] 1 [] = .error ⟨.oneToOneRel "texttag" tagRepr⟩ := by
  refine ⟨by decide, ?_, ?_⟩ <;> rfl

open ReflectDemo in
example : Lists tagRepr tagFields tagMeta ∧ tags.target = some tagRepr ∧ tags.remoteFields = (tagFields.filter (·.isLocal)).map (·.attname) := by decide

end Denorm
