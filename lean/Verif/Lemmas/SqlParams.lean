import Verif.Spec.SqlText
import Verif.Lemmas.TriggerSet
/-!
# Parameters in the text of triggers
-/
namespace Denorm

/-- A value of one of the conditions that goes into the SQL as a parameter. -/
def IsParam (cs : List Cond) (v : Val) : Prop := ∃ c ∈ cs, v ∈ c.values ∧ ¬ (c.lookup = .exact ∧ c.value = .null)

theorem params_toFilter {c : Cond} {v : Val} (h : v ∈ c.toFilter.params) : v ∈ c.values ∧ ¬ (c.lookup = .exact ∧ c.value = .null) := by
  unfold Cond.toFilter at h
  split at h
  · cases h
  · rename_i hn
    exact ⟨h, hn⟩

theorem params_toNeg {c : Cond} {v : Val} {f : Filter} (hf : f ∈ c.toNegFilters) (h : v ∈ f.params) :
    v ∈ c.values ∧ ¬ (c.lookup = .exact ∧ c.value = .null) := by
  unfold Cond.toNegFilters at hf
  split at hf
  · simp only [List.mem_singleton] at hf
    subst hf
    cases h
  · rename_i hn
    simp only [List.mem_cons, List.not_mem_nil, or_false] at hf
    rcases hf with rfl | rfl
    · exact ⟨h, hn⟩
    · cases h

theorem params_andAll {v : Val} : ∀ {fs : List Filter}, v ∈ (andAll fs).params → ∃ f ∈ fs, v ∈ f.params
  | [], h => by cases h
  | [f], h => ⟨f, by simp, h⟩
  | f :: g :: fs, h => by
    rcases List.mem_append.1 h with h | h
    · exact ⟨f, by simp, h⟩
    · obtain ⟨x, hx, hv⟩ := params_andAll (fs := g :: fs) h
      exact ⟨x, List.mem_cons_of_mem _ hx, hv⟩

theorem params_whereOf {filter exclude : List Cond} {f : Filter} {v : Val} (hf : whereOf filter exclude = some f) (h : v ∈ f.params) :
    IsParam (filter ++ exclude) v := by
  have hall : ∀ g ∈ filter.map Cond.toFilter ++ (if exclude = [] then [] else [.not (andAll (exclude.flatMap Cond.toNegFilters))]),
      v ∈ g.params → IsParam (filter ++ exclude) v := by
    intro g hg hv
    rcases List.mem_append.1 hg with hg | hg
    · obtain ⟨c, hm, rfl⟩ := List.mem_map.1 hg
      exact ⟨c, List.mem_append_left _ hm, params_toFilter hv⟩
    · by_cases he : exclude = []
      · simp [he] at hg
      · simp only [he, if_false, List.mem_singleton] at hg
        subst hg
        obtain ⟨x, hx, hv⟩ := params_andAll hv
        obtain ⟨c, hm, hx⟩ := List.mem_flatMap.1 hx
        exact ⟨c, List.mem_append_right _ hm, params_toNeg hx hv⟩
  unfold whereOf at hf
  generalize filter.map Cond.toFilter ++ (if exclude = [] then [] else [.not (andAll (exclude.flatMap Cond.toNegFilters))]) = l at hf hall
  cases l with
  | nil => simp at hf
  | cons x xs =>
    simp only [Option.some.injEq] at hf
    subst hf
    obtain ⟨g, hg, hv⟩ := params_andAll h
    exact hall g hg hv

/-- Only the conditions of aggregates become parameters. -/
theorem params_denorm {d : Denorm} : ∀ t ∈ d.triggers, ∀ a ∈ t.actions, ∀ v ∈ a.params, IsParam d.conds v := by
  intro t ht a ha v hv
  cases d with
  | callback bu m f skip deps =>
    exfalso
    have hn : a.params = [] := by
      simp only [Denorm.triggers, List.mem_append] at ht
      rcases ht with ht | ht
      · cases bu <;> simp only [if_true, Bool.false_eq_true, if_false, selfTriggers, List.mem_cons, List.not_mem_nil, or_false] at ht
        rcases ht with rfl | rfl <;> simp only [mkTrigger, List.mem_singleton] at ha <;> subst ha <;> rfl
      · obtain ⟨⟨this, other, rel, sk⟩, hd, ht⟩ := List.mem_flatMap.1 ht
        cases rel with
        | forward f =>
          simp only [Dep.callbackTriggers, List.mem_cons, List.not_mem_nil, or_false] at ht
          rcases ht with rfl | rfl | rfl <;> simp only [mkTrigger, List.mem_singleton] at ha <;> subst ha <;> rfl
        | backward f =>
          simp only [Dep.callbackTriggers, List.mem_cons, List.not_mem_nil, or_false] at ht
          rcases ht with rfl | rfl | rfl <;> simp only [mkTrigger, List.mem_cons, List.not_mem_nil, or_false] at ha
          · rcases ha with rfl | rfl <;> rfl
          all_goals subst ha; rfl
        | forwardM2M f =>
          cases f <;> simp only [Dep.callbackTriggers, callbackM2MTriggers, List.cons_append, List.nil_append, List.mem_cons, List.not_mem_nil, or_false] at ht
          · rcases ht with rfl | rfl | rfl | rfl <;> simp only [mkTrigger, M2MLike.subject, List.mem_cons, List.not_mem_nil, or_false] at ha
            · rcases ha with rfl | rfl <;> rfl
            all_goals subst ha; rfl
          · rcases ht with rfl | rfl | rfl <;> simp only [mkTrigger, M2MLike.subject, List.mem_cons, List.not_mem_nil, or_false] at ha
            · rcases ha with rfl | rfl <;> rfl
            all_goals subst ha; rfl
        | backwardM2M f =>
          cases f <;> simp only [Dep.callbackTriggers, callbackM2MTriggers, List.cons_append, List.nil_append, List.mem_cons, List.not_mem_nil, or_false] at ht
          · rcases ht with rfl | rfl | rfl | rfl <;> simp only [mkTrigger, M2MLike.subject, List.mem_cons, List.not_mem_nil, or_false] at ha
            · rcases ha with rfl | rfl <;> rfl
            all_goals subst ha; rfl
          · rcases ht with rfl | rfl | rfl <;> simp only [mkTrigger, M2MLike.subject, List.mem_cons, List.not_mem_nil, or_false] at ha
            · rcases ha with rfl | rfl <;> rfl
            all_goals subst ha; rfl
    rw [hn] at hv
    cases hv
  | cacheKey m f deps =>
    exfalso
    have hn : a.params = [] := by
      obtain ⟨⟨this, other, rel, sk⟩, hd, ht⟩ := List.mem_flatMap.1 ht
      cases rel with
      | forward f =>
        simp only [Dep.cacheKeyTriggers, List.mem_cons, List.not_mem_nil, or_false] at ht
        rcases ht with rfl | rfl | rfl <;> simp only [mkTrigger, List.mem_singleton] at ha <;> subst ha <;> rfl
      | backward f =>
        simp only [Dep.cacheKeyTriggers, List.mem_cons, List.not_mem_nil, or_false] at ht
        rcases ht with rfl | rfl | rfl <;> simp only [mkTrigger, List.mem_cons, List.not_mem_nil, or_false] at ha
        · rcases ha with rfl | rfl <;> rfl
        all_goals subst ha; rfl
      | forwardM2M f =>
        cases f <;> simp only [Dep.cacheKeyTriggers, cacheKeyM2MTriggers, List.cons_append, List.nil_append, List.mem_cons, List.not_mem_nil, or_false] at ht
        · rcases ht with rfl | rfl | rfl | rfl <;> simp only [mkTrigger, M2MLike.subject, List.mem_cons, List.not_mem_nil, or_false] at ha
          · rcases ha with rfl | rfl <;> rfl
          all_goals subst ha; rfl
        · rcases ht with rfl | rfl | rfl <;> simp only [mkTrigger, M2MLike.subject, List.mem_cons, List.not_mem_nil, or_false] at ha
          · rcases ha with rfl | rfl <;> rfl
          all_goals subst ha; rfl
      | backwardM2M f =>
        cases f <;> simp only [Dep.cacheKeyTriggers, cacheKeyM2MTriggers, List.cons_append, List.nil_append, List.mem_cons, List.not_mem_nil, or_false] at ht
        · rcases ht with rfl | rfl | rfl | rfl <;> simp only [mkTrigger, M2MLike.subject, List.mem_cons, List.not_mem_nil, or_false] at ha
          · rcases ha with rfl | rfl <;> rfl
          all_goals subst ha; rfl
        · rcases ht with rfl | rfl | rfl <;> simp only [mkTrigger, M2MLike.subject, List.mem_cons, List.not_mem_nil, or_false] at ha
          · rcases ha with rfl | rfl <;> rfl
          all_goals subst ha; rfl
    rw [hn] at hv
    cases hv
  | aggregate g =>
    simp only [Denorm.conds]
    have hg : ∀ s, v ∈ (g.guards s).flatMap Guard.params → IsParam (g.filter ++ g.exclude) v := by
      intro s h
      unfold AggDenorm.guards at h
      cases hw : whereOf g.filter g.exclude with
      | none => simp [hw] at h
      | some f =>
        simp only [hw, List.flatMap_cons, List.flatMap_nil, List.append_nil, Guard.params] at h
        exact params_whereOf hw h
    simp only [Denorm.triggers, AggDenorm.triggers, List.mem_cons, List.not_mem_nil, or_false] at ht
    rcases ht with rfl | rfl | rfl <;> simp only [mkTrigger, List.mem_cons, List.not_mem_nil, or_false] at ha
    · rcases ha with rfl | rfl <;> exact hg _ hv
    all_goals subst ha; exact hg _ hv

/-! ## Texts with the same parameters -/

theorem parts_congr {b : Backend} {lit lit' : Val → String} {s : Side} : ∀ (f : Filter) (neg : Bool), (∀ v ∈ f.params, lit v = lit' v) →
    f.parts b lit s neg = f.parts b lit' s neg
  | .tt, _, _ => by simp only [Filter.parts]
  | .cmp c l v, _, h => by
    have hv := h v (by simp [Filter.params])
    cases l with
    | oneOf vs =>
      have : (v :: vs).map lit = (v :: vs).map lit' := List.map_congr_left fun x hx => h x hx
      simp only [Filter.parts, Lookup.text, this]
    | between hi =>
      have : lit hi = lit' hi := h hi (by simp [Filter.params, Lookup.more])
      simp only [Filter.parts, Lookup.text, hv, this]
    | _ => simp only [Filter.parts, Lookup.text, hv]
  | .isNull c, _, _ => by simp only [Filter.parts]
  | .and f g, neg, h => by
    simp only [Filter.parts]
    rw [parts_congr f neg fun v hv => h v (List.mem_append_left _ hv), parts_congr g neg fun v hv => h v (List.mem_append_right _ hv)]
  | .not f, neg, h => by
    have ih := parts_congr (b := b) (s := s) f true h
    cases neg
    · simp only [Filter.parts]
      rw [ih]
    · cases f <;> simp only [Filter.parts] at ih ⊢ <;> first | rfl | (rw [ih])

theorem action_congr {b : Backend} {lit lit' : Val → String} {a : Action} (h : ∀ v ∈ a.params, lit v = lit' v) : a.text b lit = a.text b lit' := by
  cases a with
  | markValues => rfl
  | markSelect => rfl
  | update u =>
    have hg : u.guards.map (Guard.text b lit) = u.guards.map (Guard.text b lit') := by
      refine List.map_congr_left fun g hg => ?_
      cases g with
      | someRow => rfl
      | filter s f =>
        simp only [Guard.text, Filter.text]
        rw [parts_congr f false fun v hv => h v (List.mem_flatMap.2 ⟨_, hg, hv⟩)]
    simp only [Action.text, hg]

theorem actionsText_congr {b : Backend} {lit lit' : Val → String} {sep : String} {as : List Action} (h : ∀ a ∈ as, ∀ v ∈ a.params, lit v = lit' v) :
    actionsText b lit sep as = actionsText b lit' sep as := by
  unfold actionsText
  rw [List.map_congr_left (g := fun a => (endStmt (a.text b lit'), a.params)) fun a ha => by rw [action_congr (h a ha)]]

theorem text_congr {b : Backend} {lit lit' : Val → String} {t : PyTrigger} (h : ∀ a ∈ t.actions, ∀ v ∈ a.params, lit v = lit' v) (name : String) :
    t.text b lit name = t.text b lit' name := by
  have e : ∀ b sep, actionsText b lit sep t.actions = actionsText b lit' sep t.actions := fun b sep => actionsText_congr h
  cases b
  · simp only [PyTrigger.text, sqliteTriggerText, e]
  · simp only [PyTrigger.text, mysqlTriggerText, mysqlBody, e]
  · simp only [PyTrigger.text, postgresTriggerText, postgresBody, e]

theorem params_built {b : Backend} {decls : List Denorm} {p : String × PyTrigger} (hp : p ∈ buildTriggerset b decls) {a : Action} (ha : a ∈ p.2.actions)
    {v : Val} (hv : v ∈ a.params) : ∃ d ∈ decls, IsParam d.conds v := by
  obtain ⟨g, hg, _, ha'⟩ := (buildInv b decls).origin p hp a ha
  obtain ⟨d, hd, hg⟩ := List.mem_flatMap.1 hg
  exact ⟨d, hd, params_denorm g hg a ha' v hv⟩

end Denorm
