import Verif.Spec.Agree
import Verif.Lemmas.Engine
/-!
# What a TriggerSet contains
-/
namespace Denorm

theorem buildTriggerset_eq (b : Backend) (D : List Denorm) :
    buildTriggerset b D = TriggerSet.append b [] (generated D) := by
  suffices ∀ ts, D.foldl (fun ts d => TriggerSet.append b ts d.triggers) ts = TriggerSet.append b ts (generated D) from
    this []
  induction D with
  | nil => intro ts; rfl
  | cons d D ih =>
    intro ts
    rw [List.foldl_cons, ih]
    simp only [generated, List.flatMap_cons, TriggerSet.append, List.foldl_append]

/-- Two Trigger objects agree in everything but their actions. -/
def PyTrigger.sameHead (t t' : PyTrigger) : Prop :=
  t.table = t'.table ∧ t.event = t'.event ∧ t.fields = t'.fields ∧ t.contentTypeField = t'.contentTypeField ∧
    t.contentType = t'.contentType

theorem PyTrigger.sameHead.refl (t : PyTrigger) : t.sameHead t := ⟨rfl, rfl, rfl, rfl, rfl⟩

/-- What `TriggerSet.add` does to a set: either the name was there and only the actions of that entry grow, or a new entry
comes last. -/
theorem TriggerSet.add_cases (b : Backend) (t : PyTrigger) : ∀ ts : TriggerSet,
    (t.name b ∉ ts.map (·.1) ∧ TriggerSet.add b ts t = ts ++ [(t.name b, t)]) ∨
    (∃ l1 t0 l2, ts = l1 ++ (t.name b, t0) :: l2 ∧ t.name b ∉ l1.map (·.1) ∧
      TriggerSet.add b ts t = l1 ++ (t.name b, { t0 with actions := t0.actions ++ t.actions }) :: l2)
  | [] => .inl ⟨by simp, rfl⟩
  | (n, t0) :: rest => by
    simp only [TriggerSet.add]
    split
    · rename_i h
      subst h
      exact .inr ⟨[], t0, rest, rfl, by simp, rfl⟩
    · rename_i h
      rcases TriggerSet.add_cases b t rest with ⟨h1, h2⟩ | ⟨l1, t1, l2, h1, h2, h3⟩
      · refine .inl ⟨?_, by rw [h2]; rfl⟩
        simp only [List.map_cons, List.mem_cons, not_or]
        exact ⟨fun h' => h h'.symm, h1⟩
      · refine .inr ⟨(n, t0) :: l1, t1, l2, by rw [h1]; rfl, ?_, by rw [h3]; rfl⟩
        simp only [List.map_cons, List.mem_cons, not_or]
        exact ⟨fun h' => h h'.symm, h2⟩

/-- Invariant of `append`: the set holds, per name, the head of the first trigger of that name and all actions. -/
structure BuildInv (b : Backend) (gs : List PyTrigger) (ts : TriggerSet) : Prop where
  nodup : (ts.map (·.1)).Nodup
  covers : ∀ g ∈ gs, ∃ p ∈ ts, p.1 = g.name b ∧ ∀ a ∈ g.actions, a ∈ p.2.actions
  head : ∀ p ∈ ts, ∃ g ∈ gs, g.name b = p.1 ∧ p.2.sameHead g
  origin : ∀ p ∈ ts, ∀ a ∈ p.2.actions, ∃ g ∈ gs, g.name b = p.1 ∧ a ∈ g.actions

theorem BuildInv.add {b : Backend} {gs : List PyTrigger} {ts : TriggerSet} (h : BuildInv b gs ts) (t : PyTrigger) :
    BuildInv b (gs ++ [t]) (TriggerSet.add b ts t) := by
  rcases TriggerSet.add_cases b t ts with ⟨h1, h2⟩ | ⟨l1, t0, l2, h1, h2, h3⟩
  · rw [h2]
    constructor
    · rw [List.map_append, List.nodup_append]
      refine ⟨h.nodup, by simp, ?_⟩
      rintro a ha b' hb rfl
      simp only [List.map_cons, List.map_nil, List.mem_singleton] at hb
      exact h1 (hb ▸ ha)
    · intro g hg
      rcases List.mem_append.1 hg with hg | hg
      · obtain ⟨p, hp, h3, h4⟩ := h.covers g hg
        exact ⟨p, List.mem_append_left _ hp, h3, h4⟩
      · rw [List.mem_singleton] at hg
        subst hg
        exact ⟨_, List.mem_append_right _ (List.mem_singleton.2 rfl), rfl, fun _ h => h⟩
    · intro p hp
      rcases List.mem_append.1 hp with hp | hp
      · obtain ⟨g, hg, h3, h4⟩ := h.head p hp
        exact ⟨g, List.mem_append_left _ hg, h3, h4⟩
      · rw [List.mem_singleton] at hp
        subst hp
        exact ⟨t, List.mem_append_right _ (List.mem_singleton.2 rfl), rfl, .refl t⟩
    · intro p hp a ha
      rcases List.mem_append.1 hp with hp | hp
      · obtain ⟨g, hg, h3, h4⟩ := h.origin p hp a ha
        exact ⟨g, List.mem_append_left _ hg, h3, h4⟩
      · rw [List.mem_singleton] at hp
        subst hp
        exact ⟨t, List.mem_append_right _ (List.mem_singleton.2 rfl), rfl, ha⟩
  · have hmem : ∀ p, p ∈ TriggerSet.add b ts t → p ∈ ts ∨ p = (t.name b, { t0 with actions := t0.actions ++ t.actions }) := by
      intro p hp
      rw [h3] at hp
      rw [h1]
      simp only [List.mem_append, List.mem_cons] at hp ⊢
      rcases hp with hp | rfl | hp
      · exact .inl (.inl hp)
      · exact .inr rfl
      · exact .inl (.inr (.inr hp))
    have ht0 : (t.name b, t0) ∈ ts := by rw [h1]; simp
    constructor
    · have := h.nodup
      rw [h1] at this
      rw [h3]
      simpa using this
    · intro g hg
      rcases List.mem_append.1 hg with hg | hg
      · obtain ⟨p, hp, h4, h5⟩ := h.covers g hg
        rw [h1] at hp
        rw [h3]
        simp only [List.mem_append, List.mem_cons] at hp ⊢
        rcases hp with hp | rfl | hp
        · exact ⟨p, .inl hp, h4, h5⟩
        · exact ⟨_, .inr (.inl rfl), h4, fun a ha => List.mem_append_left _ (h5 a ha)⟩
        · exact ⟨p, .inr (.inr hp), h4, h5⟩
      · rw [List.mem_singleton] at hg
        subst hg
        rw [h3]
        exact ⟨_, List.mem_append_right _ (List.mem_cons_self ..), rfl, fun a ha => List.mem_append_right _ ha⟩
    · intro p hp
      rcases hmem p hp with hp | rfl
      · obtain ⟨g, hg, h4, h5⟩ := h.head p hp
        exact ⟨g, List.mem_append_left _ hg, h4, h5⟩
      · obtain ⟨g, hg, h4, h5⟩ := h.head _ ht0
        exact ⟨g, List.mem_append_left _ hg, h4, h5⟩
    · intro p hp a ha
      rcases hmem p hp with hp | rfl
      · obtain ⟨g, hg, h4, h5⟩ := h.origin p hp a ha
        exact ⟨g, List.mem_append_left _ hg, h4, h5⟩
      · rcases List.mem_append.1 ha with ha | ha
        · obtain ⟨g, hg, h4, h5⟩ := h.origin _ ht0 a ha
          exact ⟨g, List.mem_append_left _ hg, h4, h5⟩
        · exact ⟨t, List.mem_append_right _ (List.mem_singleton.2 rfl), rfl, ha⟩

theorem buildInv_append (b : Backend) (gs' : List PyTrigger) : ∀ (gs : List PyTrigger) (ts : TriggerSet),
    BuildInv b gs ts → BuildInv b (gs ++ gs') (TriggerSet.append b ts gs') := by
  induction gs' with
  | nil => intro gs ts h; simpa [TriggerSet.append] using h
  | cons g gs' ih =>
    intro gs ts h
    have := ih _ _ (h.add g)
    simpa [TriggerSet.append] using this

theorem buildInv (b : Backend) (D : List Denorm) : BuildInv b (generated D) (buildTriggerset b D) := by
  rw [buildTriggerset_eq]
  have := buildInv_append b (generated D) [] [] ⟨by simp, by simp, by simp, by simp⟩
  simpa using this

/-- Every generated trigger's actions are run by the installed trigger of its name. -/
theorem installed_covers {b : Backend} {D : List Denorm} {g : PyTrigger} (hg : g ∈ generated D) :
    ∃ tr ∈ installedTriggers b D, tr.name = g.name b ∧ ∀ a ∈ g.actions, a ∈ tr.actions := by
  obtain ⟨p, hp, h1, h2⟩ := (buildInv b D).covers g hg
  exact ⟨_, List.mem_map.2 ⟨p, hp, rfl⟩, h1, fun a ha => mem_dedup.2 (h2 a ha)⟩

/-- Every installed trigger has table, event, watched columns and content type of some generated trigger of its name. -/
theorem installed_head {b : Backend} {D : List Denorm} {tr : DbTrigger} (h : tr ∈ installedTriggers b D) :
    ∃ g ∈ generated D, g.name b = tr.name ∧ tr.table = g.table ∧ tr.event = g.event ∧ tr.fields = g.fields ∧
      tr.ctField = g.contentTypeField ∧ tr.ct = g.contentType := by
  obtain ⟨p, hp, rfl⟩ := List.mem_map.1 h
  obtain ⟨g, hg, h1, h2⟩ := (buildInv b D).head p hp
  exact ⟨g, hg, h1, h2.1, h2.2.1, h2.2.2.1, h2.2.2.2.1, h2.2.2.2.2⟩

theorem installed_origin {b : Backend} {D : List Denorm} {tr : DbTrigger} (h : tr ∈ installedTriggers b D) {a : Action}
    (ha : a ∈ tr.actions) : ∃ g ∈ generated D, g.name b = tr.name ∧ a ∈ g.actions := by
  obtain ⟨p, hp, rfl⟩ := List.mem_map.1 h
  exact (buildInv b D).origin p hp a (mem_dedup.1 ha)

theorem installed_names_nodup (b : Backend) (D : List Denorm) : ((installedTriggers b D).map (·.name)).Nodup := by
  have := (buildInv b D).nodup
  simpa [installedTriggers, List.map_map, Function.comp_def, PyTrigger.compile] using this

theorem installed_actions_nodup {b : Backend} {D : List Denorm} {tr : DbTrigger} (h : tr ∈ installedTriggers b D) :
    tr.actions.Nodup := by
  obtain ⟨p, hp, rfl⟩ := List.mem_map.1 h
  exact nodup_dedup _

/-- Some installed trigger on `table`/`event` runs action `a` at least when one of the columns `cols` changes and, for a generic
relation, the row is of content type `ctf.2` according to column `ctf.1`. -/
def On (E : Engine) (table : TableName) (event : Event) (cols : List Col) (ctf : Option (Col × Nat)) (a : Action) : Prop :=
  ∃ tr ∈ E.triggers, tr.table = table ∧ tr.event = event ∧ (∀ c ∈ cols, c ∈ tr.fields) ∧
    (E.backend = .mysql ∨ tr.ctField = none ∨ ∃ p, ctf = some p ∧ tr.ctField = some p.1 ∧ tr.ct = p.2) ∧ a ∈ tr.actions

/-- Under agreement each generated trigger is installed as declared, possibly with more actions. -/
theorem on_of_generated {E : Engine} {D : List Denorm} (hE : E.triggers = installedTriggers E.backend D)
    (hA : AgreeOnWatch E.backend D) {g : PyTrigger} (hg : g ∈ generated D) {cols : List Col} (hc : ∀ c ∈ cols, c ∈ g.fields)
    {a : Action} (ha : a ∈ g.actions) :
    On E g.table g.event cols (g.contentTypeField.map fun c => (c, g.contentType)) a := by
  obtain ⟨tr, htr, h1, h2⟩ := installed_covers (b := E.backend) hg
  obtain ⟨g', hg', h3, h4, h5, h6, h7, h8⟩ := installed_head htr
  obtain ⟨e1, e2, e3, e4⟩ := hA g hg g' hg' (h1.symm.trans h3.symm)
  refine ⟨tr, hE ▸ htr, by rw [h4, e1], by rw [h5, e2], fun c hcc => ?_, ?_, h2 a ha⟩
  · rw [h6, ← e3]; exact hc c hcc
  · by_cases hb : E.backend = .mysql
    · exact .inl hb
    · obtain ⟨e5, e6⟩ := e4 hb
      right
      rw [h7, h8]
      cases hcf : g.contentTypeField with
      | none => left; rw [← e5, hcf]
      | some c => right; exact ⟨(c, g.contentType), rfl, by rw [← e5, hcf], (e6 (by simp [hcf])).symm⟩

end Denorm
