import Verif.Lemmas.TrackingInv
import Verif.Lemmas.Merge
/-!
# The triggers that django-denorm installs track a well declared callback
-/
namespace Denorm

theorem mkTrigger_actions (s : Subject) (ev : Event) (as : List Action) (ct : Nat) (sk : List String) :
    (mkTrigger s ev as ct sk).actions = as := by cases s <;> rfl

/-- What callback dependencies put into triggers never updates. -/
theorem callback_no_update {d : Dep} {g : PyTrigger} (hg : g ∈ d.callbackTriggers) {u : UpdAction} :
    Action.update u ∉ g.actions := by
  unfold Dep.callbackTriggers at hg
  rcases hrel : d.rel with f | f | f | f <;> rw [hrel] at hg
  · simp only [List.mem_cons, List.not_mem_nil, or_false] at hg
    rcases hg with rfl | rfl | rfl <;> simp [mkTrigger_actions]
  · simp only [List.mem_cons, List.not_mem_nil, or_false] at hg
    rcases hg with rfl | rfl | rfl <;> simp [mkTrigger_actions]
  · cases f <;> simp only [callbackM2MTriggers, List.mem_cons, List.not_mem_nil, or_false, List.cons_append,
      List.nil_append] at hg
    · rcases hg with rfl | rfl | rfl | rfl <;> simp [mkTrigger_actions]
    · rcases hg with rfl | rfl | rfl <;> simp [mkTrigger_actions]
  · cases f <;> simp only [callbackM2MTriggers, List.mem_cons, List.not_mem_nil, or_false, List.cons_append,
      List.nil_append] at hg
    · rcases hg with rfl | rfl | rfl | rfl <;> simp [mkTrigger_actions]
    · rcases hg with rfl | rfl | rfl <;> simp [mkTrigger_actions]

/-- What cache key dependencies update. -/
theorem cacheKey_update {d : Dep} {f : Col} {g : PyTrigger} (hg : g ∈ d.cacheKeyTriggers f) {u : UpdAction}
    (hu : Action.update u ∈ g.actions) : u.table = d.this.table ∧ u.col = f ∧ u.expr = .random ∧ u.guards = [] := by
  unfold Dep.cacheKeyTriggers at hg
  rcases hrel : d.rel with f | f | f | f <;> rw [hrel] at hg
  · simp only [List.mem_cons, List.not_mem_nil, or_false] at hg
    rcases hg with rfl | rfl | rfl <;> simp only [mkTrigger_actions, randomUpdate, List.mem_cons, List.not_mem_nil, or_false,
      Action.update.injEq] at hu <;> subst hu <;> exact ⟨rfl, rfl, rfl, rfl⟩
  · simp only [List.mem_cons, List.not_mem_nil, or_false] at hg
    rcases hg with rfl | rfl | rfl <;> simp only [mkTrigger_actions, randomUpdate, List.mem_cons, List.not_mem_nil, or_false,
      Action.update.injEq] at hu
    · rcases hu with rfl | rfl <;> exact ⟨rfl, rfl, rfl, rfl⟩
    · subst hu; exact ⟨rfl, rfl, rfl, rfl⟩
    · subst hu; exact ⟨rfl, rfl, rfl, rfl⟩
  all_goals
    cases f <;> simp only [cacheKeyM2MTriggers, List.mem_cons, List.not_mem_nil, or_false, List.cons_append,
      List.nil_append] at hg
    · rcases hg with rfl | rfl | rfl | rfl <;> simp only [mkTrigger_actions, randomUpdate, List.mem_cons, List.not_mem_nil, or_false,
        Action.update.injEq] at hu
      · rcases hu with rfl | rfl <;> exact ⟨rfl, rfl, rfl, rfl⟩
      all_goals (subst hu; exact ⟨rfl, rfl, rfl, rfl⟩)
    · rcases hg with rfl | rfl | rfl <;> simp only [mkTrigger_actions, randomUpdate, List.mem_cons, List.not_mem_nil, or_false,
        Action.update.injEq] at hu
      · rcases hu with rfl | rfl <;> exact ⟨rfl, rfl, rfl, rfl⟩
      all_goals (subst hu; exact ⟨rfl, rfl, rfl, rfl⟩)

/-- What an aggregate updates. -/
theorem aggregate_update {a : AggDenorm} {g : PyTrigger} (hg : g ∈ a.triggers) {u : UpdAction}
    (hu : Action.update u ∈ g.actions) : .update u = a.increment ∨ .update u = a.decrement := by
  simp only [AggDenorm.triggers, List.mem_cons, List.not_mem_nil, or_false] at hg
  rcases hg with rfl | rfl | rfl <;> simp only [mkTrigger_actions, List.mem_cons, List.not_mem_nil, or_false] at hu
  · exact hu
  · exact .inl hu
  · exact .inr hu

theorem generated_update {D : List Denorm} {g : PyTrigger} (hg : g ∈ generated D) {u : UpdAction}
    (hu : Action.update u ∈ g.actions) : ∃ dn ∈ D, (u.table, u.col) ∈ dn.writes := by
  obtain ⟨dn, hdn, hg⟩ := List.mem_flatMap.1 hg
  refine ⟨dn, hdn, ?_⟩
  cases dn with
  | callback bu m f sk ds =>
    simp only [Denorm.triggers, List.mem_append] at hg
    rcases hg with hg | hg
    · split at hg
      · simp at hg
      · simp only [selfTriggers, List.mem_cons, List.not_mem_nil, or_false] at hg
        rcases hg with rfl | rfl <;> simp [mkTrigger_actions] at hu
    · obtain ⟨d, _, hg⟩ := List.mem_flatMap.1 hg
      exact absurd hu (callback_no_update hg)
  | cacheKey m f ds =>
    obtain ⟨d, hd, hg⟩ := List.mem_flatMap.1 hg
    obtain ⟨h1, h2, _⟩ := cacheKey_update hg hu
    exact List.mem_map.2 ⟨d, hd, by rw [h1, h2]⟩
  | aggregate a =>
    rcases aggregate_update hg hu with h | h <;> simp only [AggDenorm.increment, AggDenorm.decrement, Action.update.injEq] at h <;>
      subst h <;> simp [Denorm.writes]

/-- Triggers write only the columns their declarations say. -/
theorem managed_writes {E : Engine} {D : List Denorm} (hE : E.triggers = installedTriggers E.backend D) {t : TableName}
    {c : Col} (h : Managed E t c) : ∃ dn ∈ D, (t, c) ∈ dn.writes := by
  obtain ⟨tr, htr, u, hu, rfl, rfl⟩ := h
  rw [hE] at htr
  obtain ⟨g, hg, _, ha⟩ := installed_origin htr hu
  exact generated_update hg ha

theorem Watchable.mem {m : Model} {skip : List String} {c : Col} (h : Watchable m skip c) : c ∈ watchedFields m skip := by
  obtain ⟨⟨f, hf, h1, h2⟩, h3, h4⟩ := h
  refine List.mem_filter.2 ⟨List.mem_map.2 ⟨f, List.mem_filter.2 ⟨hf, h1⟩, h2⟩, ?_⟩
  simp only [Bool.not_eq_true', List.contains_eq_mem, decide_eq_false_iff_not, effectiveSkip]
  split
  · exact h3
  · simpa using h4

theorem ground_of_installed {E : Engine} {D : List Denorm} {cb : Callback} (hE : E.triggers = installedTriggers E.backend D)
    (this : ∀ d ∈ cb.deps, d.dep.this = cb.model) (watched : ∀ d ∈ cb.deps, d.Watched)
    (keys : ∀ p ∈ cb.pks, ∀ dn ∈ D, p ∉ dn.writes)
    (links : ∀ d ∈ cb.deps, ∀ l ∈ d.dep.m2mTable, ∀ dn ∈ D, (l.1, l.2.2) ∉ dn.writes) : Ground E cb := by
  refine ⟨this, ?_, ?_, ?_⟩
  · intro d hd tbl c k hm
    have hw := watched d hd
    unfold DepRead.Watched at hw
    unfold Dep.m2mTable at hm
    rcases hrel : d.dep.rel with f | f | (m | m) | (m | m) <;> rw [hrel] at hw hm <;>
      simp only [reduceCtorEq, Option.some.injEq, Prod.mk.injEq] at hm
    · exact hm.1 ▸ hw.1
    · exact hm.1 ▸ hw.1
  · intro p hp hm
    obtain ⟨dn, hdn, h⟩ := managed_writes hE hm
    exact keys p hp dn hdn h
  · intro d hd tbl c k hl hm
    obtain ⟨dn, hdn, h⟩ := managed_writes hE hm
    exact links d hd (tbl, c, k) hl dn hdn h

/-- The dependencies are tracked with and without `DENORM_BULK_UNSAFE_TRIGGERS`. -/
theorem follows_of_installed {E : Engine} {D : List Denorm} {cb : Callback} {bu : Bool} (hE : E.triggers = installedTriggers E.backend D)
    (declared : cb.denorm bu ∈ D) (agree : ∀ g ∈ (cb.denorm bu).triggers, Covered E.backend D g) (table : cb.model.pkTable = cb.model.table)
    (this : ∀ d ∈ cb.deps, d.dep.this = cb.model) (watched : ∀ d ∈ cb.deps, d.Watched)
    (keys : ∀ p ∈ cb.pks, ∀ dn ∈ D, p ∉ dn.writes)
    (links : ∀ d ∈ cb.deps, ∀ l ∈ d.dep.m2mTable, ∀ dn ∈ D, (l.1, l.2.2) ∉ dn.writes) : Follows E cb := by
  have gen : ∀ g ∈ (cb.denorm bu).triggers, g ∈ generated D ∧ Covered E.backend D g :=
    fun g hg => ⟨List.mem_flatMap.2 ⟨_, declared, hg⟩, agree g hg⟩
  have genD : ∀ d ∈ cb.deps, ∀ g ∈ d.dep.callbackTriggers, g ∈ generated D ∧ Covered E.backend D g := by
    intro d hd g hg
    apply gen
    simp only [Callback.denorm, Denorm.triggers, List.mem_append]
    exact .inr (List.mem_flatMap.2 ⟨d.dep, List.mem_map.2 ⟨d, hd, rfl⟩, hg⟩)
  have on : ∀ (g : PyTrigger), g ∈ generated D ∧ Covered E.backend D g → ∀ cols, (∀ c ∈ cols, c ∈ g.fields) → ∀ a ∈ g.actions,
      On E g.table g.event cols (g.contentTypeField.map fun c => (c, g.contentType)) a :=
    fun g hg cols hc a ha => on_of_covered hE hg.1 hg.2 hc ha
  refine ⟨ground_of_installed hE this watched keys links, ?_⟩
  · intro d hd
    have hth := this d hd
    have hw := watched d hd
    have hg := genD d hd
    unfold DepTracks
    unfold DepRead.Watched at hw
    unfold Dep.callbackTriggers at hg
    rcases hrel : d.dep.rel with f | f | (m | m) | (m | m) <;> rw [hrel] at hw hg <;>
      simp only [callbackM2MTriggers, List.mem_cons, List.not_mem_nil, or_false, List.cons_append, List.nil_append,
        forall_eq_or_imp, forall_eq, m2mColumns, if_true, M2MLike.subject, Bool.false_eq_true, if_false] at hw hg ⊢
    · obtain ⟨h1, h2, h3⟩ := hg
      have ht : d.dep.this.pkTable = d.dep.this.table := by rw [hth]; exact table
      rw [ht] at h1 h2 h3
      exact ⟨on _ h1 _ (fun c hc => (hw c hc).mem) _ (by simp [mkTrigger]), on _ h2 [] (by simp) _ (by simp [mkTrigger]),
        on _ h3 [] (by simp) _ (by simp [mkTrigger])⟩
    · obtain ⟨h1, h2, h3⟩ := hg
      have hcols : ∀ c ∈ f.column :: d.reads, c ∈ watchedFields d.dep.other d.dep.skip := by
        intro c hc
        rcases List.mem_cons.1 hc with rfl | hc
        · exact hw.1.mem
        · exact (hw.2 c hc).mem
      exact ⟨on _ h1 _ hcols _ (by simp [mkTrigger]), on _ h1 _ hcols _ (by simp [mkTrigger]),
        on _ h2 [] (by simp) _ (by simp [mkTrigger]), on _ h3 [] (by simp) _ (by simp [mkTrigger])⟩
    · obtain ⟨h1, h2, h3, h4⟩ := hg
      exact ⟨on _ h1 _ (by simp [mkTrigger]) _ (by simp [mkTrigger]), on _ h1 _ (by simp [mkTrigger]) _ (by simp [mkTrigger]),
        on _ h2 [] (by simp) _ (by simp [mkTrigger]), on _ h3 [] (by simp) _ (by simp [mkTrigger]),
        on _ h4 _ (fun c hc => (hw.2 c hc).mem) _ (by simp [mkTrigger])⟩
    · obtain ⟨h1, h2, h3⟩ := hg
      have hcols : ∀ c ∈ (m.ctFieldName ++ "_id") :: m.objectIdField :: d.reads, c ∈ m.remoteFields := by
        intro c hc
        rcases List.mem_cons.1 hc with rfl | hc
        · exact hw.1
        · rcases List.mem_cons.1 hc with rfl | hc
          · exact hw.2.1
          · exact hw.2.2 c hc
      exact ⟨on _ h1 _ hcols _ (by simp [mkTrigger]), on _ h1 _ hcols _ (by simp [mkTrigger]),
        on _ h2 [] (by simp) _ (by simp [mkTrigger]), on _ h3 [] (by simp) _ (by simp [mkTrigger])⟩
    · obtain ⟨h1, h2, h3, h4⟩ := hg
      exact ⟨on _ h1 _ (by simp [mkTrigger]) _ (by simp [mkTrigger]), on _ h1 _ (by simp [mkTrigger]) _ (by simp [mkTrigger]),
        on _ h2 [] (by simp) _ (by simp [mkTrigger]), on _ h3 [] (by simp) _ (by simp [mkTrigger]),
        on _ h4 _ (fun c hc => (hw.2 c hc).mem) _ (by simp [mkTrigger])⟩

theorem tracks_of_installed {E : Engine} {D : List Denorm} {cb : Callback} (hE : E.triggers = installedTriggers E.backend D)
    (hD : WellDeclared E.backend D cb) : Tracks E cb := by
  have gen : ∀ g ∈ (cb.denorm).triggers, g ∈ generated D ∧ Covered E.backend D g :=
    fun g hg => ⟨List.mem_flatMap.2 ⟨_, hD.declared, hg⟩, hD.agree g hg⟩
  have on : ∀ (g : PyTrigger), g ∈ generated D ∧ Covered E.backend D g → ∀ cols, (∀ c ∈ cols, c ∈ g.fields) → ∀ a ∈ g.actions,
      On E g.table g.event cols (g.contentTypeField.map fun c => (c, g.contentType)) a :=
    fun g hg cols hc a ha => on_of_covered hE hg.1 hg.2 hc ha
  refine ⟨follows_of_installed hE hD.declared hD.agree hD.table hD.this hD.watched hD.keys hD.links, ?_, ?_⟩
  · refine on (mkTrigger (.model cb.model) .update [.markValues cb.model.ct .new cb.model.pk true] cb.model.ct cb.skip) ?_ cb.ownCols ?_ _ ?_
    · exact gen _ (by simp [Callback.denorm, Denorm.triggers, selfTriggers])
    · exact fun c hc => (hD.own c hc).mem
    · simp [mkTrigger_actions]
  · refine on (mkTrigger (.model cb.model) .insert [.markValues cb.model.ct .new cb.model.pk true] cb.model.ct cb.skip) ?_ [] ?_ _ ?_
    · exact gen _ (by simp [Callback.denorm, Denorm.triggers, selfTriggers])
    · simp
    · simp [mkTrigger_actions]

end Denorm
