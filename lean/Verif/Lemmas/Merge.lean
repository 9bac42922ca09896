import Verif.Lemmas.TriggerSet
/-!
# Repeated triggers change nothing
-/
namespace Denorm

theorem dedupFrom_congr {α : Type _} [DecidableEq α] : ∀ (l s s' : List α), (∀ a, a ∈ s ↔ a ∈ s') → dedupFrom s l = dedupFrom s' l
  | [], _, _, _ => rfl
  | a :: l, s, s', h => by
    simp only [dedupFrom]
    by_cases ha : a ∈ s
    · rw [if_pos ha, if_pos ((h a).1 ha), dedupFrom_congr l s s' h]
    · rw [if_neg ha, if_neg (fun h' => ha ((h a).2 h'))]
      rw [dedupFrom_congr l (a :: s) (a :: s') (by simp [h])]

theorem dedupFrom_append {α : Type _} [DecidableEq α] : ∀ (l l' s : List α),
    dedupFrom s (l ++ l') = dedupFrom s l ++ dedupFrom (s ++ l) l'
  | [], l', s => by simp [dedupFrom]
  | a :: l, l', s => by
    simp only [List.cons_append, dedupFrom]
    split
    · rename_i ha
      rw [dedupFrom_append l l' s]
      congr 1
      exact dedupFrom_congr _ _ _ (by intro x; simp only [List.mem_append, List.mem_cons]; constructor
                                      · rintro (h | h)
                                        · exact .inl h
                                        · exact .inr (.inr h)
                                      · rintro (h | rfl | h)
                                        · exact .inl h
                                        · exact .inl ha
                                        · exact .inr h)
    · rw [dedupFrom_append l l' (a :: s), List.cons_append]
      congr 2
      exact dedupFrom_congr _ _ _ (by intro x; simp only [List.mem_append, List.mem_cons]; constructor
                                      · rintro (h | h | h)
                                        · exact .inr (.inl h)
                                        · exact .inl h
                                        · exact .inr (.inr h)
                                      · rintro (h | h | h)
                                        · exact .inr (.inl h)
                                        · exact .inl h
                                        · exact .inr (.inr h))

theorem dedupFrom_nil_of {α : Type _} [DecidableEq α] : ∀ {l s : List α}, (∀ a ∈ l, a ∈ s) → dedupFrom s l = []
  | [], _, _ => rfl
  | a :: l, s, h => by
    rw [dedupFrom, if_pos (h a (List.mem_cons_self ..))]
    exact dedupFrom_nil_of fun b hb => h b (List.mem_cons_of_mem _ hb)

theorem dedup_append_of {α : Type _} [DecidableEq α] {l l' : List α} (h : ∀ a ∈ l', a ∈ l) : dedup (l ++ l') = dedup l := by
  rw [dedup, dedupFrom_append, dedupFrom_nil_of (l := l') (by simpa using h), List.append_nil]; rfl

theorem dedup_append_congr {α : Type _} [DecidableEq α] {l1 l2 : List α} (h : dedup l1 = dedup l2) (l' : List α) :
    dedup (l1 ++ l') = dedup (l2 ++ l') := by
  rw [dedup, dedup, dedupFrom_append, dedupFrom_append]
  show dedup l1 ++ _ = dedup l2 ++ _
  rw [h]
  congr 1
  refine dedupFrom_congr _ _ _ fun a => ?_
  simp only [List.nil_append]
  rw [← mem_dedup (l := l1), h, mem_dedup]

/-- What is installed from a set. -/
def compileAll (ts : TriggerSet) : List DbTrigger := ts.map fun p => p.2.compile p.1

theorem compileAll_add_congr (b : Backend) (t : PyTrigger) : ∀ (ts ts' : TriggerSet), compileAll ts = compileAll ts' →
    compileAll (TriggerSet.add b ts t) = compileAll (TriggerSet.add b ts' t)
  | [], [], _ => rfl
  | [], _ :: _, h => by simp [compileAll] at h
  | _ :: _, [], h => by simp [compileAll] at h
  | (n, t0) :: ts, (n', t0') :: ts', h => by
    simp only [compileAll, List.map_cons, List.cons.injEq] at h
    obtain ⟨h1, h2⟩ := h
    have hn : n = n' := congrArg DbTrigger.name h1
    subst hn
    simp only [TriggerSet.add]
    split
    · simp only [compileAll, List.map_cons, List.cons.injEq]
      refine ⟨?_, h2⟩
      simp only [PyTrigger.compile, DbTrigger.mk.injEq, true_and] at h1 ⊢
      refine ⟨h1.1, h1.2.1, h1.2.2.1, h1.2.2.2.1, h1.2.2.2.2.1, dedup_append_congr h1.2.2.2.2.2 _⟩
    · simp only [compileAll, List.map_cons, List.cons.injEq, h1, true_and]
      exact compileAll_add_congr b t ts ts' h2

theorem compileAll_append_congr (b : Backend) (gs : List PyTrigger) : ∀ (ts ts' : TriggerSet), compileAll ts = compileAll ts' →
    compileAll (TriggerSet.append b ts gs) = compileAll (TriggerSet.append b ts' gs) := by
  induction gs with
  | nil => intro ts ts' h; exact h
  | cons g gs ih => intro ts ts' h; exact ih _ _ (compileAll_add_congr b g ts ts' h)

/-- Adding a trigger whose actions are already there. -/
theorem compileAll_add_of (b : Backend) {ts : TriggerSet} (hn : (ts.map (·.1)).Nodup) {t : PyTrigger}
    (h : ∃ p ∈ ts, p.1 = t.name b ∧ ∀ a ∈ t.actions, a ∈ p.2.actions) : compileAll (TriggerSet.add b ts t) = compileAll ts := by
  obtain ⟨p, hp, h1, h2⟩ := h
  rcases TriggerSet.add_cases b t ts with ⟨h3, _⟩ | ⟨l1, t0, l2, h3, h4, h5⟩
  · exact absurd (h1 ▸ List.mem_map_of_mem hp) h3
  · have hp2 : p.2 = t0 := by
      rw [h3] at hp hn
      simp only [List.map_append, List.map_cons, List.nodup_append, List.nodup_cons] at hn
      rcases List.mem_append.1 hp with hp | hp
      · exact absurd (h1 ▸ List.mem_map_of_mem hp) h4
      · rcases List.mem_cons.1 hp with rfl | hp
        · rfl
        · exact absurd (h1 ▸ List.mem_map_of_mem hp) hn.2.1.1
    rw [h5, h3]
    simp only [compileAll, List.map_append, List.map_cons, PyTrigger.compile]
    rw [dedup_append_of (fun a ha => hp2 ▸ h2 a ha)]

theorem compileAll_append_of (b : Backend) : ∀ (gs' gs : List PyTrigger) (ts : TriggerSet), BuildInv b gs ts → (∀ g ∈ gs', g ∈ gs) →
    compileAll (TriggerSet.append b ts gs') = compileAll ts
  | [], _, _, _, _ => rfl
  | g :: gs', gs, ts, h, hs => by
    have h1 : compileAll (TriggerSet.add b ts g) = compileAll ts := compileAll_add_of b h.nodup (h.covers g (hs g (List.mem_cons_self ..)))
    have h2 := compileAll_append_of b gs' gs ts h (fun g' hg' => hs g' (List.mem_cons_of_mem _ hg'))
    rw [← h2]
    exact compileAll_append_congr b gs' _ _ h1

theorem installed_repeat (b : Backend) (D1 D2 : List Denorm) {dn : Denorm} (h : dn ∈ D1) :
    installedTriggers b (D1 ++ dn :: D2) = installedTriggers b (D1 ++ D2) := by
  have hI := buildInv b D1
  have e1 : ∀ D, installedTriggers b D = compileAll (TriggerSet.append b [] (generated D)) := by
    intro D; rw [← buildTriggerset_eq]; rfl
  rw [e1, e1]
  have e2 : ∀ l1 l2, TriggerSet.append b [] (l1 ++ l2) = TriggerSet.append b (TriggerSet.append b [] l1) l2 := by
    intro l1 l2; simp [TriggerSet.append]
  simp only [generated, List.flatMap_append, List.flatMap_cons] at *
  rw [e2, e2]
  rw [buildTriggerset_eq] at hI
  have h3 : compileAll (TriggerSet.append b (TriggerSet.append b [] (D1.flatMap Denorm.triggers)) dn.triggers) =
      compileAll (TriggerSet.append b [] (D1.flatMap Denorm.triggers)) :=
    compileAll_append_of b _ _ _ hI (fun g hg => List.mem_flatMap.2 ⟨dn, h, hg⟩)
  have e3 : ∀ ts l1 l2, TriggerSet.append b ts (l1 ++ l2) = TriggerSet.append b (TriggerSet.append b ts l1) l2 := by
    intro ts l1 l2; simp [TriggerSet.append]
  rw [e3]
  exact compileAll_append_congr b _ _ _ h3

/-! ## The first trigger of a name decides what is watched -/

/-- The first trigger of a name. -/
def firstNamed (b : Backend) (gs : List PyTrigger) (n : String) : Option PyTrigger := gs.find? fun g => g.name b == n

theorem firstNamed_append {b : Backend} {gs : List PyTrigger} {t : PyTrigger} {n : String} :
    firstNamed b (gs ++ [t]) n = (firstNamed b gs n).or (if t.name b = n then some t else none) := by
  simp only [firstNamed, List.find?_append, List.find?_cons, List.find?_nil]
  by_cases h : t.name b = n
  · simp [h]
  · rw [beq_eq_false_iff_ne.2 h, if_neg h]

/-- Every entry has the head of the first trigger of its name. -/
def HeadFirst (b : Backend) (gs : List PyTrigger) (ts : TriggerSet) : Prop :=
  (∀ p ∈ ts, ∃ g, firstNamed b gs p.1 = some g ∧ p.2.sameHead g) ∧ ∀ g ∈ gs, g.name b ∈ ts.map (·.1)

theorem HeadFirst.add {b : Backend} {gs : List PyTrigger} {ts : TriggerSet} (h : HeadFirst b gs ts) (t : PyTrigger) :
    HeadFirst b (gs ++ [t]) (TriggerSet.add b ts t) := by
  have hold : ∀ p ∈ ts, ∃ g, firstNamed b (gs ++ [t]) p.1 = some g ∧ p.2.sameHead g := by
    intro p hp
    obtain ⟨g, h1, h2⟩ := h.1 p hp
    exact ⟨g, by rw [firstNamed_append, h1]; rfl, h2⟩
  rcases TriggerSet.add_cases b t ts with ⟨h1, h2⟩ | ⟨l1, t0, l2, h1, h2, h3⟩
  · rw [h2]
    constructor
    · intro p hp
      rcases List.mem_append.1 hp with hp | hp
      · exact hold p hp
      · rw [List.mem_singleton] at hp
        subst hp
        refine ⟨t, ?_, .refl t⟩
        have : firstNamed b gs (t.name b) = none := by
          simp only [firstNamed, List.find?_eq_none, beq_iff_eq]
          intro g hg he
          exact h1 (he ▸ h.2 g hg)
        rw [firstNamed_append, this]; simp
    · intro g hg
      rw [List.map_append, List.mem_append]
      rcases List.mem_append.1 hg with hg | hg
      · exact .inl (h.2 g hg)
      · rw [List.mem_singleton] at hg
        subst hg; right; simp
  · have ht0 : (t.name b, t0) ∈ ts := by rw [h1]; simp
    constructor
    · intro p hp
      rw [h3] at hp
      simp only [List.mem_append, List.mem_cons] at hp
      rcases hp with hp | rfl | hp
      · exact hold p (by rw [h1]; simp [hp])
      · obtain ⟨g, h4, h5⟩ := hold _ ht0
        exact ⟨g, h4, h5⟩
      · exact hold p (by rw [h1]; simp [hp])
    · intro g hg
      have hmap : (TriggerSet.add b ts t).map (·.1) = ts.map (·.1) := by rw [h3, h1]; simp
      rw [hmap]
      rcases List.mem_append.1 hg with hg | hg
      · exact h.2 g hg
      · rw [List.mem_singleton] at hg
        subst hg
        exact List.mem_map_of_mem ht0

theorem headFirst_append (b : Backend) (gs' : List PyTrigger) : ∀ (gs : List PyTrigger) (ts : TriggerSet),
    HeadFirst b gs ts → HeadFirst b (gs ++ gs') (TriggerSet.append b ts gs') := by
  induction gs' with
  | nil => intro gs ts h; simpa [TriggerSet.append] using h
  | cons g gs' ih =>
    intro gs ts h
    have := ih _ _ (h.add g)
    simpa [TriggerSet.append] using this

/-- An installed trigger watches what the first declared trigger of its name watches. -/
theorem installed_first {b : Backend} {D : List Denorm} {tr : DbTrigger} (h : tr ∈ installedTriggers b D) :
    ∃ g, firstNamed b (generated D) tr.name = some g ∧ tr.table = g.table ∧ tr.event = g.event ∧ tr.fields = g.fields ∧
      tr.ctField = g.contentTypeField ∧ tr.ct = g.contentType := by
  obtain ⟨p, hp, rfl⟩ := List.mem_map.1 h
  have hF : HeadFirst b (generated D) (buildTriggerset b D) := by
    rw [buildTriggerset_eq]
    simpa using headFirst_append b (generated D) [] [] ⟨by simp, by simp⟩
  obtain ⟨g, h1, h2⟩ := hF.1 p hp
  exact ⟨g, h1, h2.1, h2.2.1, h2.2.2.1, h2.2.2.2.1, h2.2.2.2.2⟩

/-- A covered trigger is installed as declared, possibly with more actions and more watched columns. -/
theorem on_of_covered {E : Engine} {D : List Denorm} (hE : E.triggers = installedTriggers E.backend D) {g : PyTrigger}
    (hg : g ∈ generated D) (hC : Covered E.backend D g) {cols : List Col} (hc : ∀ c ∈ cols, c ∈ g.fields) {a : Action} (ha : a ∈ g.actions) :
    On E g.table g.event cols (g.contentTypeField.map fun c => (c, g.contentType)) a := by
  obtain ⟨tr, htr, h1, h2⟩ := installed_covers (b := E.backend) hg
  obtain ⟨g', h3, h4, h5, h6, h7, h8⟩ := installed_first htr
  rw [h1, firstNamed] at h3
  simp only [Covered, h3] at hC
  obtain ⟨e1, e2, e3, e4, _⟩ := hC
  refine ⟨tr, hE ▸ htr, by rw [h4, e1], by rw [h5, e2], fun c hcc => ?_, ?_, h2 a ha⟩
  · rw [h6]; exact e3 c (hc c hcc)
  · by_cases hb : E.backend = .mysql
    · exact .inl hb
    · obtain ⟨e5, e6⟩ := e4 hb
      right
      rw [h7, h8]
      cases hcf : g.contentTypeField with
      | none => left; rw [e5, hcf]
      | some c => right; exact ⟨(c, g.contentType), rfl, by rw [e5, hcf], e6 (by simp [hcf])⟩

/-- Declarations that agree cover each other. -/
theorem covered_of_agree {b : Backend} {D : List Denorm} (hA : AgreeOnWatch b D) {g : PyTrigger} (hg : g ∈ generated D) : Covered b D g := by
  unfold Covered
  split
  · rename_i g' h
    have h1 := List.find?_some h
    have h2 := List.mem_of_find?_eq_some h
    obtain ⟨e1, e2, e3, e4⟩ := hA g' h2 g hg (by simpa using h1)
    exact ⟨e1, e2, fun c hc => e3 ▸ hc, fun hb => ⟨(e4 hb).1, fun hn => (e4 hb).2 ((e4 hb).1 ▸ hn)⟩, fun _ h => e3.trans h⟩
  · rename_i h
    exact absurd (List.find?_eq_none.1 h g hg) (by simp)

end Denorm
