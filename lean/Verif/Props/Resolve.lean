import Verif.Code.Resolve
import Verif.Lemmas.Engine
import Verif.Demo
/-!
# Relation auto-resolution (C29)
-/
namespace Denorm

/-! ## Specification -/

/-- The relation is a ForeignKey, ManyToManyField or GenericRelation between the two models, in the given direction. -/
def Connects (this other : Model) : Rel → Prop
  | .forward f => f ∈ this.fields ∧ f.target = some other.repr
  | .backward f => f ∈ other.fields ∧ f.target = some this.repr
  | .forwardM2M (.m2m f) => f ∈ this.m2ms ∧ f.target = other.repr
  | .forwardM2M (.generic g) => g ∈ this.privates ∧ g.target = some other.repr
  | .backwardM2M (.m2m f) => f ∈ other.m2ms ∧ f.target = this.repr
  | .backwardM2M (.generic g) => g ∈ other.privates ∧ g.target = some this.repr

/-- The relation's field has the name given as `foreign_key=` (for a ForeignKey with or without `_id`). -/
def Named (name : String) : Rel → Prop
  | .forward f | .backward f => f.attname = name ∨ f.attname = name ++ "_id"
  | .forwardM2M f | .backwardM2M f => f.attname = name

/-- The direction is from this model to the other one. -/
def Rel.isForward : Rel → Prop
  | .forward _ | .forwardM2M _ => True
  | .backward _ | .backwardM2M _ => False

/-- The relation matches the arguments of `depend_on_related(other, foreign_key=, type=)`. -/
structure Fits (this other : Model) (fk : Option String) (type : Option RelType) (rel : Rel) : Prop where
  connects : Connects this other rel
  named : ∀ n, fk = some n → n ≠ "" → Named n rel
  typed : ∀ t, type = some t → rel.type = t
  self : this = other → type = none → rel.isForward

/-- Django model classes do not differ in upper and lower case only, and none is called `None`. -/
structure Distinguishable (this other : Model) : Prop where
  fks : ∀ m ∈ [this, other], ∀ m' ∈ [this, other], ∀ f ∈ m.fields, ∀ t, f.target = some t → lower t = lower m'.repr → t = m'.repr
  m2ms : ∀ m ∈ [this, other], ∀ m' ∈ [this, other], ∀ f ∈ m.m2ms, lower f.target = lower m'.repr → f.target = m'.repr
  generics : ∀ m ∈ [this, other], ∀ m' ∈ [this, other], ∀ f ∈ m.privates, ∀ t, f.target = some t → lower t = lower m'.repr → t = m'.repr
  none : ∀ m' ∈ [this, other], lower "None" ≠ lower m'.repr

/-- A model's fields are different from each other. -/
def FieldsDistinct (m : Model) : Prop := m.fields.Nodup ∧ m.m2ms.Nodup ∧ m.privates.Nodup

/-! ## Proof -/

theorem mem_findFks {a b : Model} {fk : Option String}
    (hd : ∀ f ∈ a.fields, ∀ t, f.target = some t → lower t = lower b.repr → t = b.repr) {f : Field} :
    f ∈ findFks a b fk ↔ f ∈ a.fields ∧ f.target = some b.repr ∧ ∀ n, fk = some n → n ≠ "" → f.attname = n ∨ f.attname = n ++ "_id" := by
  have h1 : ∀ f : Field, f ∈ findFks a b none ↔ f ∈ a.fields ∧ f.target = some b.repr := by
    intro f
    simp only [findFks, List.mem_filter]
    constructor
    · rintro ⟨⟨h1, h2⟩, h3⟩
      obtain ⟨t, ht⟩ := Option.isSome_iff_exists.1 h2
      simp only [ht, beq_iff_eq] at h3
      exact ⟨h1, by rw [ht, hd f h1 t ht h3]⟩
    · rintro ⟨h1, h2⟩
      simp [h1, h2]
  cases fk with
  | none => simp only [reduceCtorEq, false_implies, implies_true, and_true]; exact h1 f
  | some n =>
    have e : findFks a b (some n) = if n = "" then findFks a b none else
      (findFks a b none).filter fun x => x.attname == n || x.attname == n ++ "_id" := rfl
    rw [e]
    by_cases hn : n = ""
    · rw [if_pos hn, h1]
      simp only [Option.some.injEq]
      constructor
      · rintro ⟨h2, h3⟩; exact ⟨h2, h3, fun m hm hm' => absurd (hm ▸ hn) hm'⟩
      · rintro ⟨h2, h3, _⟩; exact ⟨h2, h3⟩
    · rw [if_neg hn, List.mem_filter, h1]
      simp only [Bool.or_eq_true, beq_iff_eq, Option.some.injEq]
      constructor
      · rintro ⟨⟨h2, h3⟩, h4⟩; exact ⟨h2, h3, fun m hm _ => hm ▸ h4⟩
      · rintro ⟨h2, h3, h4⟩; exact ⟨⟨h2, h3⟩, h4 n rfl hn⟩

theorem mem_findM2Ms {a b : Model} {fk : Option String}
    (hm : ∀ f ∈ a.m2ms, lower f.target = lower b.repr → f.target = b.repr)
    (hg : ∀ f ∈ a.privates, ∀ t, f.target = some t → lower t = lower b.repr → t = b.repr) (hn : lower "None" ≠ lower b.repr)
    {f : M2MLike} :
    f ∈ findM2Ms a b fk ↔ (match f with
      | .m2m f => f ∈ a.m2ms ∧ f.target = b.repr
      | .generic g => g ∈ a.privates ∧ g.target = some b.repr) ∧ ∀ n, fk = some n → n ≠ "" → f.attname = n := by
  have h1 : ∀ f : M2MLike, f ∈ findM2Ms a b none ↔
      match f with
      | .m2m f => f ∈ a.m2ms ∧ f.target = b.repr
      | .generic g => g ∈ a.privates ∧ g.target = some b.repr := by
    intro f
    cases f with
    | m2m f =>
      simp only [findM2Ms, List.mem_filter, List.mem_append, List.mem_map, M2MLike.m2m.injEq, exists_eq_right, reduceCtorEq, and_false,
        exists_false, or_false, M2MLike.targetRepr, beq_iff_eq]
      exact ⟨fun h => ⟨h.1, hm f h.1 h.2⟩, fun h => ⟨h.1, by rw [h.2]⟩⟩
    | generic g =>
      simp only [findM2Ms, List.mem_filter, List.mem_append, List.mem_map, M2MLike.generic.injEq, exists_eq_right, reduceCtorEq, and_false,
        exists_false, false_or, M2MLike.targetRepr, beq_iff_eq]
      constructor
      · rintro ⟨h2, h3⟩
        cases ht : g.target with
        | none => simp only [ht, Option.getD_none] at h3; exact absurd h3 hn
        | some t => simp only [ht, Option.getD_some] at h3; exact ⟨h2, by rw [hg g h2 t ht h3]⟩
      · rintro ⟨h2, h3⟩
        exact ⟨h2, by simp [h3]⟩
  cases fk with
  | none => simp only [reduceCtorEq, false_implies, implies_true, and_true]; exact h1 f
  | some n =>
    have e : findM2Ms a b (some n) = if n = "" then findM2Ms a b none else (findM2Ms a b none).filter fun x => x.attname == n := rfl
    rw [e]
    by_cases hn : n = ""
    · rw [if_pos hn, h1]
      exact ⟨fun h => ⟨h, fun m hm hm' => absurd (Option.some.inj hm ▸ hn) hm'⟩, fun h => h.1⟩
    · rw [if_neg hn, List.mem_filter, h1]
      simp only [beq_iff_eq, Option.some.injEq]
      exact ⟨fun h => ⟨h.1, fun m hm _ => hm ▸ h.2⟩, fun h => ⟨h.1, h.2 n rfl hn⟩⟩

/-- The candidate list holds exactly the relations that fit. -/
theorem mem_candidates {this other : Model} (hd : Distinguishable this other) (fk : Option String) (type : Option RelType) (rel : Rel) :
    rel ∈ candidates this other fk type ↔ Fits this other fk type rel := by
  have hF : ∀ f, f ∈ findFks this other fk ↔ _ := fun f => mem_findFks (fun f => hd.fks this (by simp) other (by simp) f)
  have hB : ∀ f, f ∈ findFks other this fk ↔ _ := fun f => mem_findFks (fun f => hd.fks other (by simp) this (by simp) f)
  have hFM : ∀ f, f ∈ findM2Ms this other fk ↔ _ := fun f => mem_findM2Ms (hd.m2ms this (by simp) other (by simp))
    (hd.generics this (by simp) other (by simp)) (hd.none other (by simp))
  have hBM : ∀ f, f ∈ findM2Ms other this fk ↔ _ := fun f => mem_findM2Ms (hd.m2ms other (by simp) this (by simp))
    (hd.generics other (by simp) this (by simp)) (hd.none this (by simp))
  simp only [candidates, List.mem_filter, List.mem_append]
  have hty : (match type with
      | none => true
      | some t => decide (t = rel.type)) = true ↔ ∀ t, type = some t → rel.type = t := by
    cases type with
    | none => simp
    | some t => simp [eq_comm]
  refine (and_congr Iff.rfl hty).trans ?_
  have hboth : (decide (other ≠ this) || type.isSome) = true ↔ ¬ (this = other ∧ type = none) := by
    cases type with
    | none =>
      simp only [ne_eq, decide_not, Option.isSome_none, Bool.or_false, Bool.not_eq_true', decide_eq_false_iff_not, and_true]
      exact ⟨fun h e => h e.symm, fun h e => h e.symm⟩
    | some t => simp
  constructor
  · rintro ⟨h, ht⟩
    rcases h with ((h | h) | h) | h
    · obtain ⟨f, h1, rfl⟩ := List.mem_map.1 h
      obtain ⟨h2, h3, h4⟩ := (hF f).1 h1
      exact ⟨⟨h2, h3⟩, h4, ht, fun _ _ => trivial⟩
    · split at h
      · rename_i hb
        obtain ⟨f, h1, rfl⟩ := List.mem_map.1 h
        obtain ⟨h2, h3, h4⟩ := (hB f).1 h1
        exact ⟨⟨h2, h3⟩, h4, ht, fun e1 e2 => hboth.1 hb ⟨e1, e2⟩⟩
      · simp at h
    · obtain ⟨f, h1, rfl⟩ := List.mem_map.1 h
      obtain ⟨h2, h4⟩ := (hFM f).1 h1
      exact ⟨by cases f <;> exact h2, h4, ht, fun _ _ => trivial⟩
    · split at h
      · rename_i hb
        obtain ⟨f, h1, rfl⟩ := List.mem_map.1 h
        obtain ⟨h2, h4⟩ := (hBM f).1 h1
        exact ⟨by cases f <;> exact h2, h4, ht, fun e1 e2 => hboth.1 hb ⟨e1, e2⟩⟩
      · simp at h
  · intro h
    refine ⟨?_, h.typed⟩
    have hc := h.connects
    have hn := h.named
    have hb : ¬ rel.isForward → (decide (other ≠ this) || type.isSome) = true := fun hf => hboth.2 fun e => hf (h.self e.1 e.2)
    cases rel with
    | forward f => exact .inl (.inl (.inl (List.mem_map_of_mem ((hF f).2 ⟨hc.1, hc.2, hn⟩))))
    | backward f =>
      rw [if_pos (hb (by simp [Rel.isForward]))]
      exact .inl (.inl (.inr (List.mem_map_of_mem ((hB f).2 ⟨hc.1, hc.2, hn⟩))))
    | forwardM2M f =>
      refine .inl (.inr (List.mem_map_of_mem ((hFM f).2 ⟨?_, hn⟩)))
      cases f <;> exact hc
    | backwardM2M f =>
      have hb := hb (by simp [Rel.isForward])
      right
      rw [if_pos hb]
      refine (List.mem_map_of_mem ((hBM f).2 ⟨?_, hn⟩))
      cases f <;> exact hc

theorem nodup_map_inj {α β : Type _} {f : α → β} (hf : ∀ a b, f a = f b → a = b) {l : List α} (h : l.Nodup) : (l.map f).Nodup :=
  List.Pairwise.map f (fun a b hab he => hab (hf a b he)) h

theorem nodup_findFks {a b : Model} {fk : Option String} (h : a.fields.Nodup) : (findFks a b fk).Nodup := by
  simp only [findFks]
  split
  · exact List.Pairwise.filter _ (List.Pairwise.filter _ h)
  · split
    · exact List.Pairwise.filter _ (List.Pairwise.filter _ h)
    · exact List.Pairwise.filter _ (List.Pairwise.filter _ (List.Pairwise.filter _ h))

theorem nodup_findM2Ms {a b : Model} {fk : Option String} (h : a.m2ms.Nodup) (h' : a.privates.Nodup) : (findM2Ms a b fk).Nodup := by
  have : (a.m2ms.map M2MLike.m2m ++ a.privates.map M2MLike.generic).Nodup := by
    refine List.nodup_append.2 ⟨nodup_map_inj (by simp) h, nodup_map_inj (by simp) h', ?_⟩
    rintro x hx y hy rfl
    obtain ⟨_, _, rfl⟩ := List.mem_map.1 hx
    obtain ⟨_, _, h3⟩ := List.mem_map.1 hy
    simp at h3
  simp only [findM2Ms]
  split
  · exact List.Pairwise.filter _ this
  · split
    · exact List.Pairwise.filter _ this
    · exact List.Pairwise.filter _ (List.Pairwise.filter _ this)

theorem nodup_candidates {this other : Model} (h1 : FieldsDistinct this) (h2 : FieldsDistinct other) (fk : Option String)
    (type : Option RelType) : (candidates this other fk type).Nodup := by
  simp only [candidates]
  refine List.Pairwise.filter _ ?_
  have typ : ∀ (l : List Rel) (t : RelType), (∀ r ∈ l, r.type = t) → ∀ (l' : List Rel), (∀ r ∈ l', r.type ≠ t) →
      ∀ a ∈ l', ∀ b ∈ l, a ≠ b := by
    rintro l t h l' h' a ha b hb rfl
    exact h' a ha (h a hb)
  have A : ((findFks this other fk).map Rel.forward).Nodup := nodup_map_inj (by simp) (nodup_findFks h1.1)
  have B : ((if (decide (other ≠ this) || type.isSome) = true then (findFks other this fk).map Rel.backward else [])).Nodup := by
    split
    · exact nodup_map_inj (by simp) (nodup_findFks h2.1)
    · simp
  have C : ((findM2Ms this other fk).map Rel.forwardM2M).Nodup := nodup_map_inj (by simp) (nodup_findM2Ms h1.2.1 h1.2.2)
  have D : ((if (decide (other ≠ this) || type.isSome) = true then (findM2Ms other this fk).map Rel.backwardM2M else [])).Nodup := by
    split
    · exact nodup_map_inj (by simp) (nodup_findM2Ms h2.2.1 h2.2.2)
    · simp
  have tB : ∀ r ∈ (if (decide (other ≠ this) || type.isSome) = true then (findFks other this fk).map Rel.backward else []), r.type = .backward := by
    intro r hr
    split at hr
    · obtain ⟨_, _, rfl⟩ := List.mem_map.1 hr; rfl
    · simp at hr
  have tD : ∀ r ∈ (if (decide (other ≠ this) || type.isSome) = true then (findM2Ms other this fk).map Rel.backwardM2M else []),
      r.type = .backwardM2M := by
    intro r hr
    split at hr
    · obtain ⟨_, _, rfl⟩ := List.mem_map.1 hr; rfl
    · simp at hr
  have tA : ∀ r ∈ (findFks this other fk).map Rel.forward, r.type = .forward := by
    intro r hr; obtain ⟨_, _, rfl⟩ := List.mem_map.1 hr; rfl
  have tC : ∀ r ∈ (findM2Ms this other fk).map Rel.forwardM2M, r.type = .forwardM2M := by
    intro r hr; obtain ⟨_, _, rfl⟩ := List.mem_map.1 hr; rfl
  refine List.nodup_append.2 ⟨List.nodup_append.2 ⟨List.nodup_append.2 ⟨A, B, ?_⟩, C, ?_⟩, D, ?_⟩
  · exact typ _ _ tB _ (fun r hr => by rw [tA r hr]; simp)
  · refine typ _ _ tC _ (fun r hr => ?_)
    rcases List.mem_append.1 hr with hr | hr
    · rw [tA r hr]; simp
    · rw [tB r hr]; simp
  · refine typ _ _ tD _ (fun r hr => ?_)
    rcases List.mem_append.1 hr with hr | hr
    · rcases List.mem_append.1 hr with hr | hr
      · rw [tA r hr]; simp
      · rw [tB r hr]; simp
    · rw [tC r hr]; simp

section
variable {this other : Model} (hd : Distinguishable this other) (h1 : FieldsDistinct this) (h2 : FieldsDistinct other)
  (fk : Option String) (type : Option RelType)
include hd h1 h2

/-- C29. A dependency resolves to relation `rel` exactly if `rel` fits the arguments and nothing else does. -/
theorem C29_resolves_iff_unique (rel : Rel) :
    resolvedModel this other fk type = .ok rel ↔ Fits this other fk type rel ∧ ∀ rel', Fits this other fk type rel' → rel' = rel := by
  have hn := nodup_candidates h1 h2 fk type
  simp only [← mem_candidates hd, resolvedModel]
  match hc : candidates this other fk type with
  | [] => simp
  | [c] =>
    simp only [Except.ok.injEq, List.mem_singleton]
    constructor
    · rintro rfl; exact ⟨rfl, fun _ h => h⟩
    · rintro ⟨h, _⟩; exact h.symm
  | c :: c' :: cs =>
    simp only [reduceCtorEq, false_iff, not_and]
    intro _ h
    rw [hc] at hn
    have e1 := h c (by simp)
    have e2 := h c' (by simp)
    simp [e1, e2] at hn

omit h1 h2 in
/-- C29. It raises "no ForeignKeys or ManyToManyFields" exactly if nothing fits. -/
theorem C29_fails_iff_none : resolvedModel this other fk type = .error .noRelation ↔ ∀ rel, ¬ Fits this other fk type rel := by
  simp only [← mem_candidates hd, resolvedModel]
  match hc : candidates this other fk type with
  | [] => simp
  | [c] => simp only [reduceCtorEq, false_iff]; intro h; exact h c (by simp)
  | c :: c' :: cs => simp only [Except.error.injEq, reduceCtorEq, false_iff]; intro h; exact h c (by simp)

/-- C29. It raises "more than one" exactly if two different relations fit. -/
theorem C29_ambiguous_iff_two : (∃ n, resolvedModel this other fk type = .error (.ambiguous n)) ↔
    ∃ rel rel', Fits this other fk type rel ∧ Fits this other fk type rel' ∧ rel ≠ rel' := by
  have hn := nodup_candidates h1 h2 fk type
  simp only [← mem_candidates hd, resolvedModel]
  match hc : candidates this other fk type with
  | [] => simp
  | [c] =>
    simp only [reduceCtorEq, exists_false, List.mem_singleton, false_iff, not_exists, not_and]
    rintro r r' rfl rfl; simp
  | c :: c' :: cs =>
    rw [hc] at hn
    simp only [Except.error.injEq, ResolveErr.ambiguous.injEq, exists_eq', true_iff]
    exact ⟨c, c', by simp, by simp, fun e => by simp [e] at hn⟩

end

/-- C29. A self relation given without type is never taken backward. -/
theorem C29_self_not_backward {m : Model} (hd : Distinguishable m m) (h : FieldsDistinct m) {fk : Option String} {rel : Rel}
    (hr : resolvedModel m m fk none = .ok rel) : rel.isForward :=
  ((C29_resolves_iff_unique hd h h fk none rel).1 hr).1.self rfl rfl

/-- C29. With a type argument the relation used is of that type. -/
theorem C29_type_respected {this other : Model} (hd : Distinguishable this other) (h1 : FieldsDistinct this) (h2 : FieldsDistinct other)
    {fk : Option String} {t : RelType} {rel : Rel} (hr : resolvedModel this other fk (some t) = .ok rel) : rel.type = t :=
  ((C29_resolves_iff_unique hd h1 h2 fk (some t) rel).1 hr).1.typed t rfl

/-! ## Examples -/

instance (m : Model) : Decidable (FieldsDistinct m) := by unfold FieldsDistinct; infer_instance

set_option maxRecDepth 100000 in
/-- The demo models meet the hypotheses .. -/
example : Distinguishable Demo.post Demo.forum ∧ FieldsDistinct Demo.post ∧ FieldsDistinct Demo.forum := by
  refine ⟨⟨by decide, by decide, by decide, by decide⟩, by decide, by decide⟩

set_option maxRecDepth 100000 in
/-- .. and one relation is found, in both directions. -/
example : (∃ f, resolvedModel Demo.post Demo.forum none none = .ok (.forward f)) ∧
    (∃ f, resolvedModel Demo.forum Demo.post none none = .ok (.backward f)) :=
  ⟨⟨_, rfl⟩, ⟨_, rfl⟩⟩

end Denorm
