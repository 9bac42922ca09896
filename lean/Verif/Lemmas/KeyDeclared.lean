import Verif.Lemmas.KeyKept
/-!
# Declared CacheKeyFields have the triggers they need
-/
namespace Denorm

section
variable {E : Engine} {D : List Denorm} {k : KeyField}

/-- Every UPDATE of the key column was generated for one of the field's dependencies. -/
theorem key_origin (hE : E.triggers = installedTriggers E.backend D) (hD : KeyDeclared E.backend D k) {tr : DbTrigger}
    (htr : tr ∈ E.triggers) {u : UpdAction} (hu : Action.update u ∈ tr.actions) (ht : u.table = k.model.table) (hc : u.col = k.field) :
    ∃ d ∈ k.deps, ∃ g ∈ d.dep.cacheKeyTriggers k.field, Action.update u ∈ g.actions ∧ tr.table = g.table ∧ tr.event = g.event := by
  rw [hE] at htr
  obtain ⟨g, hg, hn, ha⟩ := installed_origin htr hu
  obtain ⟨dn, hdn, hgd⟩ := List.mem_flatMap.1 hg
  have hw : (u.table, u.col) ∈ dn.writes := by
    obtain ⟨dn', h1, h2⟩ := generated_update (D := [dn]) (g := g) (by simpa [generated] using hgd) ha
    simp only [List.mem_singleton] at h1
    exact h1 ▸ h2
  have hdk := hD.only dn hdn (ht ▸ hc ▸ hw)
  subst hdk
  have hC := hD.agree g hgd
  obtain ⟨g', h3, h4, h5, _⟩ := installed_first htr
  rw [← hn, firstNamed] at h3
  simp only [Covered, h3] at hC
  obtain ⟨e1, e2, _⟩ := hC
  simp only [KeyField.denorm, Denorm.triggers, List.mem_flatMap, List.mem_map] at hgd
  obtain ⟨_, ⟨d, hd, rfl⟩, hgd⟩ := hgd
  exact ⟨d, hd, g, hgd, ha, h4.trans e1, h5.trans e2⟩

theorem keyTracks_of_installed (hE : E.triggers = installedTriggers E.backend D) (hD : KeyDeclared E.backend D k) : KeyTracks E k := by
  have gen : ∀ d ∈ k.deps, ∀ g ∈ d.dep.cacheKeyTriggers k.field, g ∈ generated D ∧ Covered E.backend D g := by
    intro d hd g hg
    have : g ∈ k.denorm.triggers := by
      simp only [KeyField.denorm, Denorm.triggers]
      exact List.mem_flatMap.2 ⟨d.dep, List.mem_map.2 ⟨d, hd, rfl⟩, hg⟩
    exact ⟨List.mem_flatMap.2 ⟨_, hD.declared, this⟩, hD.agree g this⟩
  have on : ∀ (g : PyTrigger), g ∈ generated D ∧ Covered E.backend D g → ∀ cols, (∀ c ∈ cols, c ∈ g.fields) → ∀ a ∈ g.actions,
      On E g.table g.event cols (g.contentTypeField.map fun c => (c, g.contentType)) a :=
    fun g hg cols hc a ha => on_of_covered hE hg.1 hg.2 hc ha
  refine ⟨ground_of_installed hE hD.this hD.watched hD.keys (fun d hd l hl dn hdn => (hD.links d hd l hl dn hdn).2), ?_, ?_, ?_, ?_⟩
  · intro d hd
    have hw := hD.watched d hd
    have hg := gen d hd
    unfold KeyDepTracks
    unfold DepRead.Watched at hw
    unfold Dep.cacheKeyTriggers at hg
    rcases hrel : d.dep.rel with f | f | (m | m) | (m | m) <;> rw [hrel] at hw hg <;>
      simp only [cacheKeyM2MTriggers, List.mem_cons, List.not_mem_nil, or_false, List.cons_append, List.nil_append,
        forall_eq_or_imp, forall_eq, m2mColumns, if_true, M2MLike.subject, Bool.false_eq_true, if_false] at hw hg ⊢
    · obtain ⟨h1, h2, h3⟩ := hg
      exact ⟨on _ h1 _ (fun c hc => (hw c hc).mem) _ (by simp [mkTrigger]), on _ h2 [] (by simp) _ (by simp [mkTrigger]),
        on _ h3 [] (by simp) _ (by simp [mkTrigger])⟩
    · obtain ⟨h1, h2, h3⟩ := hg
      have hcols : ∀ c ∈ f.column :: d.reads, c ∈ watchedFields d.dep.other d.dep.skip := by
        intro c hc
        rcases List.mem_cons.1 hc with rfl | hc
        · exact hw.1.mem
        · exact (hw.2 c hc).mem
      exact ⟨on _ h1 _ hcols _ (by simp [mkTrigger]), on _ h1 _ hcols _ (by simp [mkTrigger]),
        on _ h2 [] (by simp) _ (by simp [mkTrigger]), on _ h3 [] (by simp) _ (by simp [mkTrigger])⟩
    · obtain ⟨h1, h2, h3, h4⟩ := hg
      exact ⟨on _ h1 _ (by simp [mkTrigger]) _ (by simp [mkTrigger]), on _ h1 _ (by simp [mkTrigger]) _ (by simp [mkTrigger]),
        on _ h2 [] (by simp) _ (by simp [mkTrigger]), on _ h3 [] (by simp) _ (by simp [mkTrigger]),
        on _ h4 _ (fun c hc => (hw.2 c hc).mem) _ (by simp [mkTrigger])⟩
    · obtain ⟨h1, h2, h3⟩ := hg
      have hcols : ∀ c ∈ (m.ctFieldName ++ "_id") :: m.objectIdField :: d.reads, c ∈ m.remoteFields := by
        intro c hc
        rcases List.mem_cons.1 hc with rfl | hc
        · exact hw.1
        · rcases List.mem_cons.1 hc with rfl | hc
          · exact hw.2.1
          · exact hw.2.2 c hc
      exact ⟨on _ h1 _ hcols _ (by simp [mkTrigger]), on _ h1 _ hcols _ (by simp [mkTrigger]),
        on _ h2 [] (by simp) _ (by simp [mkTrigger]), on _ h3 [] (by simp) _ (by simp [mkTrigger])⟩
    · obtain ⟨h1, h2, h3, h4⟩ := hg
      exact ⟨on _ h1 _ (by simp [mkTrigger]) _ (by simp [mkTrigger]), on _ h1 _ (by simp [mkTrigger]) _ (by simp [mkTrigger]),
        on _ h2 [] (by simp) _ (by simp [mkTrigger]), on _ h3 [] (by simp) _ (by simp [mkTrigger]),
        on _ h4 _ (fun c hc => (hw.2 c hc).mem) _ (by simp [mkTrigger])⟩
  · intro c hc hm
    obtain ⟨dn, hdn, h⟩ := managed_writes hE hm
    exact hD.fks c hc dn hdn h
  · intro d hd tbl c c' hl hm
    obtain ⟨dn, hdn, h⟩ := managed_writes hE hm
    exact (hD.links d hd (tbl, c, c') hl dn hdn).1 h
  · intro tr htr u hu ht hc
    obtain ⟨d, hd, g, hg, ha, _⟩ := key_origin hE hD htr hu ht hc
    exact (cacheKey_update hg ha).2.2.1

theorem keySource_of_installed (hE : E.triggers = installedTriggers E.backend D) (hD : KeyDeclared E.backend D k) : KeySource E k := by
  refine ⟨fun tr htr u hu ht hc => ?_⟩
  obtain ⟨d, hd, g, hg, ha, e1, e2⟩ := key_origin hE hD htr hu ht hc
  have hw := hD.watched d hd
  refine ⟨d, hd, ?_⟩
  rw [e1, e2]
  unfold KeyShape
  unfold DepRead.Watched at hw
  unfold Dep.cacheKeyTriggers at hg
  rcases hrel : d.dep.rel with f | f | (m | m) | (m | m) <;> rw [hrel] at hg hw <;>
    simp only [cacheKeyM2MTriggers, List.mem_cons, List.not_mem_nil, or_false, List.cons_append, List.nil_append, m2mColumns, if_true,
      M2MLike.subject, Bool.false_eq_true, if_false] at hg ⊢
  · rcases hg with rfl | rfl | rfl <;>
      simp only [mkTrigger_actions, randomUpdate, List.mem_cons, List.not_mem_nil, or_false, Action.update.injEq] at ha <;> subst ha <;>
      simp [mkTrigger, Side.ok]
  · rcases hg with rfl | rfl | rfl <;>
      simp only [mkTrigger_actions, randomUpdate, List.mem_cons, List.not_mem_nil, or_false, Action.update.injEq] at ha
    · rcases ha with rfl | rfl <;> simp [mkTrigger, Side.ok]
    · subst ha; simp [mkTrigger, Side.ok]
    · subst ha; simp [mkTrigger, Side.ok]
  · rcases hg with rfl | rfl | rfl | rfl <;>
      simp only [mkTrigger_actions, randomUpdate, List.mem_cons, List.not_mem_nil, or_false, Action.update.injEq] at ha
    · rcases ha with rfl | rfl <;> simp [mkTrigger, Side.ok]
    · subst ha; simp [mkTrigger, Side.ok]
    · subst ha; simp [mkTrigger, Side.ok]
    · subst ha; simp [mkTrigger, Side.ok]
  · rcases hg with rfl | rfl | rfl <;>
      simp only [mkTrigger_actions, randomUpdate, List.mem_cons, List.not_mem_nil, or_false, Action.update.injEq] at ha
    · rcases ha with rfl | rfl <;> simp [mkTrigger, Side.ok]
    · subst ha; simp [mkTrigger, Side.ok]
    · subst ha; simp [mkTrigger, Side.ok]
  · rcases hg with rfl | rfl | rfl | rfl <;>
      simp only [mkTrigger_actions, randomUpdate, List.mem_cons, List.not_mem_nil, or_false, Action.update.injEq] at ha
    · rcases ha with rfl | rfl <;> simp [mkTrigger, Side.ok]
    · subst ha; simp [mkTrigger, Side.ok]
    · subst ha; simp [mkTrigger, Side.ok]
    · subst ha; simp [mkTrigger, Side.ok]
  · exact hw
end

end Denorm
