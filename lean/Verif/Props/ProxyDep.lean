import Verif.Props.Install
/-!
# C48: dependencies on proxy models

A ForeignKey (or a ManyToManyField) may point to a proxy model, and then a dependency has to name the proxy: `find_fks` compares `repr(remote_field_model(fk))` with
`repr(other_model)` (helpers.py:24). `Trigger.__init__` watches the fields whose model is the other model itself (base.py:58, 120-122); a proxy has none.
-/
namespace Denorm

/-- A proxy model: its fields are those of the concrete model. -/
def Model.IsProxy (m : Model) : Prop := m.proxy = true ∧ ∀ f ∈ m.fields, f.isLocal = false

/-- A dependency through a ForeignKey, a OneToOneField or a ManyToManyField, in either direction. -/
def Dep.Plain (d : Dep) : Prop := ∀ g, d.rel ≠ .forwardM2M (.generic g) ∧ d.rel ≠ .backwardM2M (.generic g)

/-- The declaration depends on `d`. -/
def Denorm.DependsOn (d : Dep) : Denorm → Prop
  | .callback _ _ _ _ deps => d ∈ deps
  | .cacheKey _ _ deps => d ∈ deps
  | .aggregate _ => False

theorem watched_proxy {m : Model} (h : m.IsProxy) (skip : List String) : watchedFields m skip = [] := by
  have : m.fields.filter (·.isLocal) = [] := List.filter_eq_nil_iff.2 fun f hf => by simp [h.2 f hf]
  simp [watchedFields, this]

/-- Every such dependency asks for an UPDATE trigger on the other model. -/
theorem plain_update {dn : Denorm} {d : Dep} (hdn : dn.DependsOn d) (hd : d.Plain) :
    ∃ g ∈ dn.triggers, ∃ actions ct, g = mkTrigger (.model d.other) .update actions ct d.skip := by
  have cb : ∃ g ∈ d.callbackTriggers, ∃ actions ct, g = mkTrigger (.model d.other) .update actions ct d.skip := by
    unfold Dep.callbackTriggers
    cases hr : d.rel with
    | forward f => exact ⟨_, List.mem_cons_self .., _, _, rfl⟩
    | backward f => exact ⟨_, List.mem_cons_self .., _, _, rfl⟩
    | forwardM2M f =>
      cases f with
      | m2m f => exact ⟨_, List.mem_append_right _ (List.mem_singleton.2 rfl), _, _, rfl⟩
      | generic g => exact absurd hr (hd g).1
    | backwardM2M f =>
      cases f with
      | m2m f => exact ⟨_, List.mem_append_right _ (List.mem_singleton.2 rfl), _, _, rfl⟩
      | generic g => exact absurd hr (hd g).2
  have ck : ∀ fn, ∃ g ∈ d.cacheKeyTriggers fn, ∃ actions ct, g = mkTrigger (.model d.other) .update actions ct d.skip := by
    intro fn
    unfold Dep.cacheKeyTriggers
    cases hr : d.rel with
    | forward f => exact ⟨_, List.mem_cons_self .., _, _, rfl⟩
    | backward f => exact ⟨_, List.mem_cons_self .., _, _, rfl⟩
    | forwardM2M f =>
      cases f with
      | m2m f => exact ⟨_, List.mem_append_right _ (List.mem_singleton.2 rfl), _, _, rfl⟩
      | generic g => exact absurd hr (hd g).1
    | backwardM2M f =>
      cases f with
      | m2m f => exact ⟨_, List.mem_append_right _ (List.mem_singleton.2 rfl), _, _, rfl⟩
      | generic g => exact absurd hr (hd g).2
  cases dn with
  | callback bulk m f skip deps =>
    obtain ⟨g, h1, h2⟩ := cb
    exact ⟨g, List.mem_append_right _ (List.mem_flatMap.2 ⟨d, hdn, h1⟩), h2⟩
  | cacheKey m f deps =>
    obtain ⟨g, h1, h2⟩ := ck f
    exact ⟨g, List.mem_flatMap.2 ⟨d, hdn, h1⟩, h2⟩
  | aggregate a => exact hdn.elim

/-- C48 is violated on sqlite and PostgreSQL by every project with a dependency on a proxy model, unless another declaration watches the same table under another name:
denorm_init fails, and no trigger of the project is installed. -/
theorem C48_violated_proxy {b : Backend} (hb : b ≠ .mysql) {hash : String → String} {draws : Nat → String} {fails : Nat → Bool}
    {D : List Denorm} {s : Server} {dn : Denorm} {d : Dep} (hdn : dn ∈ D) (hd : dn.DependsOn d) (hr : d.Plain) (hp : d.other.IsProxy)
    (alone : ∀ g ∈ generated D, g.name b = baseName .update d.other.table → ∃ actions ct skip, g = mkTrigger (.model d.other) .update actions ct skip) :
    installTriggers b hash draws fails defaultAlias D s = (s, false) := by
  obtain ⟨g, hg, acts, ct, rfl⟩ := plain_update hd hr
  have hI := buildInv b D
  have hg' : mkTrigger (.model d.other) .update acts ct d.skip ∈ generated D := List.mem_flatMap.2 ⟨dn, hdn, hg⟩
  obtain ⟨p, hp1, hp2, _⟩ := hI.covers _ hg'
  obtain ⟨g1, h1, h2, h3⟩ := hI.head p hp1
  have hn : (mkTrigger (.model d.other) .update acts ct d.skip).name b = baseName .update d.other.table := by cases b <;> rfl
  have he : p.2.fields = [] := by
    obtain ⟨acts', ct', skip', e⟩ := alone g1 h1 (by rw [h2, hp2, hn])
    rw [h3.2.2.1, e]
    exact watched_proxy hp skip'
  have hev : g1.event = .update := by
    have hn1 : g1.name b = baseName .update d.other.table := by rw [h2, hp2, hn]
    unfold PyTrigger.name at hn1
    cases b with
    | mysql => exact absurd rfl hb
    | sqlite =>
      cases hc : g1.contentTypeField with
      | none => rw [hc] at hn1; exact (baseName_inj hn1).1
      | some c => rw [hc] at hn1; simp only [baseName_suffix] at hn1; exact (baseName_inj hn1).1
    | postgresql =>
      cases hc : g1.contentTypeField with
      | none => rw [hc] at hn1; exact (baseName_inj hn1).1
      | some c => rw [hc] at hn1; simp only [baseName_suffix] at hn1; exact (baseName_inj hn1).1
  have hf := C33_empty_watch_list b hb (hash := hash) (draws := draws) (fails := fails) (u := defaultAlias) (s := s)
    ⟨p, hp1, h3.2.1.trans hev, he⟩
  have h1 : (installTriggers b hash draws fails defaultAlias D s).1 = s := by
    unfold installTriggers transact at hf ⊢
    by_cases hr : (runDdl b fails 0 (installStmts b hash draws 0 (buildTriggerset b D)) (s defaultAlias)).2 = true
    · simp [hr] at hf
    · simp only [hr, Bool.false_eq_true, if_false]
      funext a
      cases b with
      | mysql => exact absurd rfl hb
      | sqlite => by_cases ha : a = defaultAlias <;> simp [Server.set, ha]
      | postgresql => by_cases ha : a = defaultAlias <;> simp [Server.set, ha]
  exact Prod.ext h1 hf

namespace Staff

/-- `class Employee(Person): proxy`, `class Task: employee = ForeignKey(Employee)` with a field that shows the employee's name. -/
def person : Model :=
  { repr := "<class 'app.Person'>", appLabel := "app", name := "Person", table := "app_person", pkTable := "app_person", pk := "id", ct := 71,
    fields := [⟨"id", "id", "id", true, none⟩, ⟨"name", "name", "name", true, none⟩] }
def employee : Model :=
  { person with
    repr := "<class 'app.Employee'>", name := "Employee", proxy := true,
    fields := person.fields.map fun f => { f with isLocal := false } }
def taskEmployee : Field := ⟨"employee", "employee_id", "employee_id", true, some employee.repr⟩
def task : Model :=
  { repr := "<class 'app.Task'>", appLabel := "app", name := "Task", table := "app_task", pkTable := "app_task", pk := "id", ct := 72,
    fields := [⟨"id", "id", "id", true, none⟩, taskEmployee, ⟨"who", "who", "who", true, none⟩] }
def dep (other : Model) : Dep := ⟨task, other, .forward taskEmployee, []⟩
def decls : List Denorm := [.callback false task "who" [] [dep employee]]

/-- Only the proxy can be named: the ForeignKey is not found for the concrete model. -/
example : findFks task employee none = [taskEmployee] ∧ findFks task person none = [] := by decide

/-- `C48_violated_proxy`. -/
example (b : Backend) (hb : b ≠ .mysql) (s : Server) : installTriggers b id (fun _ => "") (fun _ => false) defaultAlias decls s = (s, false) :=
  C48_violated_proxy (d := dep employee) hb (List.mem_singleton.2 rfl) (List.mem_singleton.2 rfl)
    (fun _ => ⟨by simp [dep], by simp [dep]⟩) ⟨rfl, by decide⟩ (by
      intro g hg hn
      have : ∀ g ∈ generated decls, g.name b = baseName .update employee.table →
          g = mkTrigger (.model employee) .update g.actions g.contentType [] := by cases b <;> decide +kernel
      exact ⟨_, _, _, this g hg hn⟩)

/-- With the concrete model in its place the triggers are installed. -/
example (b : Backend) : (installTriggers b id (fun _ => "") (fun _ => false) defaultAlias [.callback false task "who" [] [dep person]] (fun _ => [])).2 = true := by
  cases b <;> decide +kernel

end Staff

end Denorm
