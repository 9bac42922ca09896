import Verif.Code.FieldValue
/-!
# Denormalized ForeignKeys and Denorm.update: C28, C43
-/
namespace Denorm
variable {dj : Django} {f : DenormField} {i : Inst}

/-- The column value that stands for what a callback returned. -/
def PyVal.key : PyVal → Val
  | .val v => v
  | .obj o => o.key

/-- The callback's value is acceptable for the field: a plain value or None, or for a ForeignKey an instance of its target model. -/
def DenormField.Accepts (dj : Django) (f : DenormField) : PyVal → Prop
  | .val _ => True
  | .obj o => ∃ cls, f.related = some cls ∧ dj.sub o.cls cls = true

/-- **C28**, the stored column: whether the callback returns an instance, a primary key or None, the column gets the primary key (or
NULL) and the column's attribute holds the same. No other attribute changes. -/
theorem C28_stored {v : PyVal} (hv : f.Accepts dj v) :
    (f.preSave dj v i).1 = .val v.key ∧ (f.preSave dj v i).2.attrs f.attname = .val v.key ∧
    ∀ a, a ≠ f.attname → (f.preSave dj v i).2.attrs a = i.attrs a := by
  cases v with
  | val v =>
    cases hr : f.related <;> simp only [DenormField.preSave, hr, PyVal.key, Inst.setAtt, if_true] <;>
      exact ⟨trivial, trivial, fun a ha => if_neg ha⟩
  | obj o =>
    obtain ⟨cls, hr, hs⟩ := hv
    simp only [DenormField.preSave, hr, hs, if_true, PyVal.key, Inst.setRel, Inst.setAtt]
    exact ⟨trivial, trivial, fun a ha => by simp [ha]⟩

/-- **C28, partial**, the related object: afterwards `instance.forum` is the object the column refers to. Missing: Django before 3.0,
when the callback returns a key and another object is cached (`C28_violated_cached_object`). -/
theorem C28_object_partial {v : PyVal} (hv : f.Accepts dj v) (hc : (∃ o, v = .obj o) ∨ i.cache f.name = none ∨
    (dj.clears = true ∧ i.relKey f = i.attrs f.attname)) :
    (f.preSave dj v i).2.relKey f = .val v.key := by
  cases v with
  | obj o =>
    obtain ⟨cls, hr, hs⟩ := hv
    simp [DenormField.preSave, hr, hs, PyVal.key, Inst.setRel, Inst.relKey]
  | val v =>
    have h : (f.preSave dj (.val v) i).2 = i.setAtt dj f (.val v) := by
      cases hr : f.related <;> simp [DenormField.preSave, hr]
    rw [h]
    rcases hc with ⟨o, ho⟩ | hc | ⟨hc, hk⟩
    · simp at ho
    · simp [Inst.relKey, Inst.setAtt, hc, PyVal.key]
    · by_cases he : i.attrs f.attname = .val v
      · simp only [Inst.relKey, Inst.setAtt, hc, he, PyVal.key]
        simp only [Inst.relKey, he] at hk
        simpa using hk
      · simp [Inst.relKey, Inst.setAtt, hc, he, PyVal.key]

/-- An instance of an unrelated class is handed to the database as it is, which cannot store it. -/
theorem C28_unrelated {o : Obj} (h : ¬ f.Accepts dj (.obj o)) : (f.preSave dj (.obj o) i).1 = .obj o := by
  cases hr : f.related with
  | none => simp [DenormField.preSave, hr]
  | some cls =>
    have : dj.sub o.cls cls = false := by
      cases hs : dj.sub o.cls cls with
      | false => rfl
      | true => exact absurd ⟨cls, hr, hs⟩ h
    simp [DenormField.preSave, hr, this]

/-- **C43, partial.** For a field whose callback returns plain values, `update` changes the instance exactly if the value differs from
the attribute; then it sets the attribute to the value and reports the field with the value. Missing: ForeignKey callbacks that return
instances (`C43_violated_instance`). -/
theorem C43_update_partial {func : Inst → PyVal} {v : Val} (hv : func i = .val v) :
    (i.attrs f.attname = .val v → f.update dj func i = (none, i)) ∧
    (i.attrs f.attname ≠ .val v → (f.update dj func i).1 = some [(f.name, .val v)] ∧
      (f.update dj func i).2.attrs f.attname = .val v ∧
      ∀ a, a ≠ f.attname → (f.update dj func i).2.attrs a = i.attrs a) := by
  refine ⟨fun h => by simp [DenormField.update, hv, h], fun h => ?_⟩
  have : (f.update dj func i).2 = i.setAtt dj f (.val v) := by
    cases hr : f.related <;> simp [DenormField.update, hv, hr, h]
  refine ⟨by simp [DenormField.update, hv, h], ?_, ?_⟩
  · rw [this]; simp [Inst.setAtt]
  · intro a ha
    rw [this]; simp [Inst.setAtt, ha]

/-- **C43**, many-to-many: the relation is assigned exactly if the sets of keys differ, and then it is assigned what the callback
returned. -/
theorem C43_m2m (old : List Val) (new : List PyVal) :
    ((∀ v, v ∈ old ↔ ∃ x ∈ new, x.key = v) → updateM2M old new = (none, none)) ∧
    (¬ (∀ v, v ∈ old ↔ ∃ x ∈ new, x.key = v) → updateM2M old new = (some [], some new)) := by
  have hp : PyVal.pkOf = PyVal.key := by funext x; cases x <;> rfl
  have hk : ∀ v, v ∈ new.map PyVal.pkOf ↔ ∃ x ∈ new, x.key = v := by
    intro v
    simp only [List.mem_map, hp]
  have hiff : ((∀ v ∈ old, v ∈ new.map PyVal.pkOf) ∧ ∀ v ∈ new.map PyVal.pkOf, v ∈ old) ↔ ∀ v, v ∈ old ↔ ∃ x ∈ new, x.key = v := by
    constructor
    · rintro ⟨h1, h2⟩ v
      exact ⟨fun h => (hk v).1 (h1 v h), fun h => h2 v ((hk v).2 h)⟩
    · intro h
      exact ⟨fun v hv => (hk v).2 ((h v).1 hv), fun v hv => (h v).2 ((hk v).1 hv)⟩
  unfold updateM2M
  constructor
  · intro h
    simp only
    rw [if_pos (hiff.2 h)]
  · intro h
    simp only
    rw [if_neg (fun h' => h (hiff.1 h'))]

/-! ## Examples and counterexamples -/

namespace FieldDemo
/-- A Forum is a Forum, a SubForum is one too. -/
def django (clears relatedField : Bool) : Django :=
  ⟨fun c d => c == d || (c == "SubForum" && d == "Forum"), clears, relatedField⟩
/-- `Post.forum`, a denormalized ForeignKey to Forum. -/
def forum : DenormField := ⟨"forum", "forum_id", some "Forum"⟩
/-- A post of forum 1, which has been looked at. -/
def post : Inst := ⟨fun a => if a = "forum_id" then .val (.int 1) else .val (.text "t"), fun n => if n = "forum" then some ⟨"Forum", .int 1⟩ else none⟩

example (c r : Bool) : forum.Accepts (django c r) (.obj ⟨"SubForum", .int 2⟩) ∧ forum.Accepts (django c r) (.val (.int 2)) ∧
    forum.Accepts (django c r) (.val .null) ∧ ¬ forum.Accepts (django c r) (.obj ⟨"User", .int 2⟩) ∧
    (django true r).clears = true ∧ post.relKey forum = post.attrs forum.attname ∧
    (forum.preSave (django c r) (.obj ⟨"SubForum", .int 2⟩) post).1 = .val (.int 2) ∧
    (forum.preSave (django c r) (.val .null) post).1 = .val .null := by
  refine ⟨⟨"Forum", rfl, by simp [django]⟩, trivial, trivial, ?_, rfl, by decide, ?_, ?_⟩
  · rintro ⟨cls, h1, h2⟩
    simp only [forum, Option.some.injEq] at h1
    subst h1
    revert h2
    cases c <;> cases r <;> decide
  · cases c <;> cases r <;> decide
  · cases c <;> cases r <;> decide

/-- `update` on the same post: a title that is the same, and one that differs. -/
example : (⟨"title", "title", none⟩ : DenormField).update (django false false) (fun _ => .val (.text "t")) post = (none, post) ∧
    ((⟨"title", "title", none⟩ : DenormField).update (django false false) (fun _ => .val (.text "u")) post).1 =
      some [("title", .val (.text "u"))] :=
  ⟨rfl, by decide⟩

example : updateM2M [.int 1, .int 2] [.obj ⟨"Post", .int 2⟩, .val (.int 1), .val (.int 2)] = (none, none) ∧
    updateM2M [.int 1, .int 2] [.obj ⟨"Post", .int 2⟩] = (some [], some [.obj ⟨"Post", .int 2⟩]) := by decide
end FieldDemo

/-- **C28 is violated** in every Django the library is tested with (before 3.0): the callback returns the key 2, the column gets it, but
`post.forum` still returns forum 1. -/
theorem C28_violated_cached_object (r : Bool) : ∃ (dj : Django) (f : DenormField) (i : Inst) (v : PyVal), dj.clears = false ∧
    dj.relatedField = r ∧ f.Accepts dj v ∧ i.relKey f = i.attrs f.attname ∧ (f.preSave dj v i).2.relKey f ≠ (f.preSave dj v i).1 :=
  ⟨FieldDemo.django false r, FieldDemo.forum, FieldDemo.post, .val (.int 2), rfl, rfl, trivial, by decide, by cases r <;> decide⟩

/-- **C43 is violated** by ForeignKey callbacks that return an instance: an instance never equals the stored key, so the field is
reported as changed although the key is the same. -/
theorem C43_violated_instance (c r : Bool) : ∃ (dj : Django) (f : DenormField) (i : Inst) (func : Inst → PyVal), dj.clears = c ∧
    dj.relatedField = r ∧ f.Accepts dj (func i) ∧ i.attrs f.attname = .val (func i).key ∧ (f.update dj func i).1 ≠ none :=
  ⟨FieldDemo.django c r, FieldDemo.forum, FieldDemo.post, fun _ => .obj ⟨"Forum", .int 1⟩, rfl, rfl,
    ⟨"Forum", rfl, by simp [FieldDemo.django]⟩, by decide, by cases c <;> cases r <;> decide⟩

end Denorm
