import Verif.Code.CachedInit
import Verif.Props.Classes
/-!
# Decorators of @cached fields (C42, C17)
-/
namespace Denorm

/-- C42 for @cached: each decorator adds one dependency to the field, in the order in which they are applied, if there is at least one
(`C17_violated_undecorated`). -/
theorem C42_cached (decorators : List DepSpec) (h : decorators ≠ []) :
    cachedInit (some (decorators.foldl (fun g d => dependOnRelated d g) {})) true = .ok decorators := by
  have e := C42_decorators decorators {}
  cases hd : (decorators.foldl (fun g d => dependOnRelated d g) ({} : Func)).depend with
  | none =>
    rw [Func.depends, hd] at e
    exact absurd e.symm h
  | some l =>
    rw [Func.depends, hd] at e
    simp only [cachedInit, cachedDependencies, hd, if_true]
    exact congrArg _ e

section
variable {pre post : List PyStmt} {w : World} {m : Model} {fields : List (Col × FieldRef)} {n : Col}

/-- C42 and C30 for @cached fields, the part that holds: the statement `s` that creates the field gives the class that uses it one right dependency for
each decorator. Missing: a field without decorators, a field of an abstract base with subclasses (`C30_violated_cachekey`). -/
theorem C42_cached_class_partial {decorators : List DepSpec} {s : PyStmt} {w0 : World} (hd : decorators ≠ [])
    (hs : cachedStmt (decorators.foldl (fun g d => dependOnRelated d g) {}) = .ok s) (hw : World.run pre {} = .ok w0)
    (hr : World.run (pre ++ s :: .cls m false fields :: post) {} = .ok w) (hf : (n, .key w0.keys.length) ∈ fields)
    (hu : ((pre ++ s :: .cls m false fields :: post).flatMap PyStmt.keyUses).count w0.keys.length ≤ 1) :
    ∃ (i : Nat) (d : DenormObj), w.denorms[i]? = some d ∧ d.kind = .cacheKey ∧ d.cls.model = m ∧ d.fieldname = n ∧
      EachRight w.registered m decorators (w.depsOf d) ∧ d.depend.Nodup ∧ w.Private i := by
  rw [cachedStmt, C42_cached decorators hd] at hs
  simp only [Except.ok.injEq] at hs
  subst hs
  have hp : ∀ (ss : List PyStmt) (a b : World), World.run ss a = .ok b → ∀ tl, World.run (ss ++ tl) a = World.run tl b := by
    intro ss
    induction ss with
    | nil => intro a b h tl; simp only [World.run, Except.ok.injEq] at h; rw [h, List.nil_append]
    | cons x xs ih =>
      intro a b h tl
      simp only [List.cons_append, World.run] at h ⊢
      cases hx : a.exec x with
      | error e => rw [hx] at h; simp at h
      | ok a' => rw [hx] at h; exact ih a' b h tl
  have hp0 := hp pre {} w0 hw [.keyField decorators]
  simp only [World.run, World.exec] at hp0
  exact C30_cachekey_partial (pre := pre ++ [.keyField decorators]) (by simpa using hr) hf hp0
    (k := ⟨List.range' w0.deps.length decorators.length, decorators⟩) (by simp) (by simpa using hu)
end

namespace Shop

/-- `class Book(Model): @cached(cache) @depend_on_related('self', type='forward') @depend_on_related('Category') def key`, and Category. -/
def cachedProgram : List PyStmt :=
  [ .keyField [⟨.name "Category", none, none, []⟩, ⟨.self, none, some .forward, []⟩],
    .cls book false [("key", .key 0)],
    .cls category false [] ]

/-- `C42_cached_class_partial`: both dependencies of the key. -/
example : ∃ (i : Nat) (d : DenormObj), (imported cachedProgram).denorms[i]? = some d ∧ d.cls.model = book ∧ d.fieldname = "key" ∧
    EachRight (imported cachedProgram).registered book [⟨.name "Category", none, none, []⟩, ⟨.self, none, some .forward, []⟩]
      ((imported cachedProgram).depsOf d) := by
  obtain ⟨i, d, h1, _, h2, h3, h4, _⟩ := C42_cached_class_partial (pre := []) (w0 := {}) (post := [.cls category false []]) (m := book)
    (fields := [("key", .key 0)]) (n := "key") (w := imported cachedProgram)
    (decorators := [⟨.name "Category", none, none, []⟩, ⟨.self, none, some .forward, []⟩]) (by simp)
    (s := .keyField [⟨.name "Category", none, none, []⟩, ⟨.self, none, some .forward, []⟩]) rfl rfl (run_of (by decide)) (by simp) (by decide)
  exact ⟨i, d, h1, h2, h3, h4⟩

end Shop

/-- C17: a @cached function without @depend_on_related (a value that depends on the instance only) cannot be declared, with any cache. -/
theorem C17_violated_undecorated : cachedStmt {} = .error .attributeError := rfl

end Denorm
