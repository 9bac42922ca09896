import Verif.Spec.Confluent
import Verif.Lemmas.Settle
/-!
# Acyclic dependencies have one solution
-/
namespace Denorm

/-- A related row is related in the sense of `Dep.relatedTo`, and is a row of the other table. -/
theorem relatedTo_of_mem {d : Dep} {db : Db} {r o : Row} (h : o ∈ relatedRows d db r) : o ∈ db.rows d.otherTable ∧ d.relatedTo db r o := by
  rcases d with ⟨this, other, rel, skip⟩
  rcases rel with f | f | (m | g) | (m | g)
  · simp only [relatedRows, List.mem_filter] at h
    exact ⟨h.1, Val.sqlEq_swap h.2⟩
  · simp only [relatedRows, List.mem_filter] at h
    exact ⟨h.1, h.2⟩
  · simp only [relatedRows, List.mem_flatMap, List.mem_filter] at h
    obtain ⟨l, ⟨h1, h2⟩, h3, h4⟩ := h
    exact ⟨h3, l, h1, h2, Val.sqlEq_swap h4⟩
  · simp only [relatedRows, List.mem_filter, Bool.and_eq_true] at h
    exact ⟨h.1, h.2⟩
  · simp only [relatedRows, List.mem_flatMap, List.mem_filter] at h
    obtain ⟨l, ⟨h1, h2⟩, h3, h4⟩ := h
    exact ⟨h3, l, h1, h2, Val.sqlEq_swap h4⟩
  · simp only [relatedRows, List.mem_filter, Bool.and_eq_true] at h
    exact ⟨h.1, h.2.1, Val.sqlEq_swap h.2.2⟩

theorem Pw.symm {R : Row → Row → Prop} {l l' : List Row} (h : Pw R l l') : Pw (fun a b => R b a) l' l := by
  induction h with
  | nil => exact .nil
  | cons hr _ ih => exact .cons hr ih

section
variable {A A' : App} {D : List Denorm} {cbs : List Callback} {rank : Nat → Val → Nat} {L : Nat} {e e' : Db}

/-- Rows at the same position of two flushed databases: the same where neither flush wrote, and in the fields `cbs` of instances below `ρ`. -/
def Twin (A A' : App) (cbs : List Callback) (rank : Nat → Val → Nat) (ρ : Nat) (t : TableName) (a b : Row) : Prop :=
  (∀ c, ¬ Touched A t c → ¬ Touched A' t c → b c = a c) ∧
  ∀ cb ∈ cbs, cb.model.table = t → rank cb.model.ct (a cb.model.pk) < ρ → b cb.field = a cb.field

/-- What the induction needs to know of the two databases. -/
structure Solved (A A' : App) (D : List Denorm) (cbs : List Callback) (rank : Nat → Val → Nat) (L : Nat) (e e' : Db) : Prop where
  project : Project A D
  project' : Project A' D
  models : A'.models = A.models
  covers : FlushedTogether A D cbs e
  covers' : FlushedTogether A' D cbs e'
  layered : Layered A D rank L e
  rows : ∀ t, Pw (fun a b => ∀ c, ¬ Touched A t c → ¬ Touched A' t c → b c = a c) (e.rows t) (e'.rows t)
  fresh : ∀ cb ∈ cbs, ∀ r ∈ e.rows cb.model.table, r cb.field = cb.value e r
  fresh' : ∀ cb ∈ cbs, ∀ r ∈ e'.rows cb.model.table, r cb.field = cb.value e' r

theorem Solved.pk (h : Solved A A' D cbs rank L e e') {om : OrmModel} (hom : om ∈ A.models) {ρ : Nat} {a b : Row}
    (ht : Twin A A' cbs rank ρ om.model.table a b) : b om.model.pk = a om.model.pk :=
  ht.1 _ (pk_untouched h.project.safe hom) (pk_untouched h.project'.safe (h.models ▸ hom))

theorem Solved.step_field (h : Solved A A' D cbs rank L e e') {ρ : Nat} (hρ : ∀ t, Pw (Twin A A' cbs rank ρ t) (e.rows t) (e'.rows t))
    {om : OrmModel} (hom : om ∈ A.models) {a b : Row} (ha : a ∈ e.rows om.model.table) (hb : b ∈ e'.rows om.model.table)
    (hab : Twin A A' cbs rank ρ om.model.table a b) (hr : rank om.model.ct (a om.model.pk) < ρ + 1) :
    ∀ (n : Nat), ∀ cb ∈ cbs, cb.model = om.model → om.cols.idxOf cb.field = n → b cb.field = a cb.field := by
  intro n
  induction n using Nat.strongRecOn with
  | _ n ih =>
    intro cb hcb hm hn
    obtain ⟨om1, hF, -, -⟩ := h.covers.each cb hcb
    have hom1 : om1 = om := h.project.tables om1 (List.mem_of_find?_eq_some hF.found) om hom (by rw [hF.model, hm])
    rw [hom1] at hF
    obtain ⟨pre, post, hs, ho⟩ := hF.order
    have hcols : om.cols = pre.map SaveField.col ++ cb.field :: post.map SaveField.col := by simp [OrmModel.cols, hs]
    have hpre : n = (pre.map SaveField.col).length := by rw [← hn]; exact idxOf_split hcols hF.cols
    have hdn := hF.declared.declared
    rw [← hm] at ha hb
    rw [h.fresh cb hcb a ha, h.fresh' cb hcb b hb]
    -- a computed column of the same row
    have field : ∀ cb' ∈ cbs, cb'.model.table = cb.model.table → cb'.field ∈ cb.own → b cb'.field = a cb'.field := by
      intro cb' hcb' ht hc
      obtain ⟨om2, hF2, -, -⟩ := h.covers.each cb' hcb'
      have hom2 : om2 = om := h.project.tables om2 (List.mem_of_find?_eq_some hF2.found) om hom (by rw [hF2.model, ht, hm])
      rw [hom2] at hF2
      obtain ⟨pre2, post2, hs2, -⟩ := hF2.order
      have hmem : (⟨cb'.field, .callback cb'⟩ : SaveField) ∈ om.saved := by rw [hs2]; simp
      obtain ⟨hne, hpost⟩ := ho cb'.field (List.mem_append_left _ hc)
      have hin : (⟨cb'.field, .callback cb'⟩ : SaveField) ∈ pre := by
        rw [hs] at hmem
        rcases List.mem_append.1 hmem with h1 | h1
        · exact h1
        · rcases List.mem_cons.1 h1 with h1 | h1
          · simp only [SaveField.mk.injEq] at h1
            exact absurd h1.1 hne
          · exact absurd rfl (hpost _ h1 rfl)
      have : om.cols.idxOf cb'.field < n := by
        rw [hpre]
        exact idxOf_pre hcols (List.mem_map.2 ⟨_, hin, rfl⟩)
      exact ih _ this cb' hcb' hF2.model.symm rfl
    simp only [Callback.value]
    congr 1
    · refine List.map_congr_left fun c hc => ?_
      by_cases h1 : Touched A cb.model.table c
      · obtain ⟨cb', hcb', ht, rfl⟩ := h.covers.own cb hcb c hc h1
        exact field cb' hcb' ht hc
      · by_cases h2 : Touched A' cb.model.table c
        · obtain ⟨cb', hcb', ht, rfl⟩ := h.covers'.own cb hcb c hc h2
          exact field cb' hcb' ht hc
        · rw [hm] at h1 h2
          exact hab.1 c h1 h2
    · refine List.map_congr_left fun d hd => ?_
      have hdd : d.dep ∈ (cb.denorm).deps := by simpa [Callback.denorm, Denorm.deps] using ⟨d, hd, rfl⟩
      have hthis := hF.declared.this d hd
      obtain ⟨hl, hk⟩ := h.project.fixed _ hdn _ hdd
      obtain ⟨hl', hk'⟩ := h.project'.fixed _ hdn _ hdd
      refine (seen_related (R := Twin A A' cbs rank ρ) (fun g => (h.project.generic _ hdn _ hdd g).1) ?_ ?_ hρ ?_ ?_).symm
      · rw [hthis, hm]
        exact (h.pk hom hab).symm
      · intro c hc
        have h1 := hk c hc
        have h2 := hk' c hc
        rw [hthis, hm] at h1 h2
        exact (hab.1 c h1 h2).symm
      · exact fun p hp x y hxy => hxy.1 _ (hl p hp) (hl' p hp)
      · intro x y hxy hx c hc
        have lower : ∀ cb' ∈ cbs, cb'.model.table = d.dep.otherTable → cb'.field = c → y c = x c := by
          rintro cb' hcb' ht rfl
          obtain ⟨om2, hF2, -, -⟩ := h.covers.each cb' hcb'
          obtain ⟨h1, h2⟩ := relatedTo_of_mem hx
          have hm2 := hF2.model
          rw [← ht, ← hm2] at h1
          refine hxy.2 cb' hcb' ht ?_
          have := h.layered.up _ hdn om2 (List.mem_of_find?_eq_some hF2.found) x h1 a ha (.inl ⟨d.dep, hdd, by rw [hm2, ht], h2⟩)
          rw [hm2] at this
          have h3 : (cb.denorm).model = om.model := hm
          rw [h3] at this
          omega
        by_cases h1 : Touched A d.dep.otherTable c
        · obtain ⟨cb', hcb', ht, hf⟩ := h.covers.reads cb hcb d hd c hc h1
          exact lower cb' hcb' ht hf
        · by_cases h2 : Touched A' d.dep.otherTable c
          · obtain ⟨cb', hcb', ht, hf⟩ := h.covers'.reads cb hcb d hd c hc h2
            exact lower cb' hcb' ht hf
          · exact hxy.1 c h1 h2

theorem Solved.twins (h : Solved A A' D cbs rank L e e') : ∀ (ρ : Nat) (t : TableName), Pw (Twin A A' cbs rank ρ t) (e.rows t) (e'.rows t)
  | 0, t => (h.rows t).imp fun a _ b _ hab => ⟨hab, fun _ _ _ h => absurd h (by omega)⟩
  | ρ + 1, t => (h.twins ρ t).imp fun a ha b hb hab => ⟨hab.1, by
      rintro cb hcb rfl hr
      obtain ⟨om, hF, -, -⟩ := h.covers.each cb hcb
      have hom := List.mem_of_find?_eq_some hF.found
      have hm := hF.model
      rw [← hm] at ha hb hab hr
      exact h.step_field (h.twins ρ) hom ha hb hab hr _ cb hcb hm.symm rfl⟩

/-- Position by position, the two databases hold the same values in the fields `cbs` and wherever neither flush writes. -/
theorem Solved.same (h : Solved A A' D cbs rank L e e') (t : TableName) :
    Pw (fun a b => (∀ c, ¬ Touched A t c → ¬ Touched A' t c → b c = a c) ∧ ∀ cb ∈ cbs, cb.model.table = t → b cb.field = a cb.field)
      (e.rows t) (e'.rows t) := by
  refine (h.twins L t).imp fun a ha b _ hab => ⟨hab.1, ?_⟩
  rintro cb hcb rfl
  obtain ⟨om, hF, -, -⟩ := h.covers.each cb hcb
  refine hab.2 cb hcb rfl ?_
  have := h.layered.bound om (List.mem_of_find?_eq_some hF.found) a (by rw [hF.model]; exact ha)
  rwa [hF.model] at this

/-- Two runs of flush() on the same rows. -/
theorem solved_of_flush {db db' : Db} {n n' : Nat} (hP : Project A D) (hP' : Project A' D) (hm : A'.models = A.models)
    (hrows : db'.rows = db.rows) (hu : KeysUnique A db) (hc : FlushedTogether A D cbs db) (hc' : FlushedTogether A' D cbs db')
    (hL : Layered A D rank L db) (h : A.flush n db = .ok (some e)) (h' : A'.flush n' db' = .ok (some e')) :
    Solved A A' D cbs rank L e e' := by
  have hu' : KeysUnique A' db' := by unfold KeysUnique; rw [hm, hrows]; exact hu
  have after : ∀ {A : App} {db e : Db} {n : Nat}, KeysUnique A db → FlushedTogether A D cbs db → A.flush n db = .ok (some e) →
      FlushedTogether A D cbs e ∧ ∀ cb ∈ cbs, ∀ r ∈ e.rows cb.model.table, r cb.field = cb.value e r := by
    intro A db e n hu hc h
    have hg : ∀ cb ∈ cbs, ∃ om, Good A D om cb e ∧ e.dirty = [] := fun cb hcb => by
      obtain ⟨om, h1, h2, h3⟩ := hc.each cb hcb
      exact ⟨om, good_flush n ⟨h1, hu, h2, h3⟩ h⟩
    refine ⟨⟨fun cb hcb => ?_, hc.own, hc.reads⟩, fun cb hcb r hr => ?_⟩
    · obtain ⟨om, hG, -⟩ := hg cb hcb
      exact ⟨om, hG.flushable, hG.keysOk, hG.stale⟩
    · obtain ⟨om, hG, hd⟩ := hg cb hcb
      refine Classical.byContradiction fun hne => ?_
      have := hG.stale r hr hne
      simp [Marked, hd] at this
  have hs := flush_same hP.safe n hu h
  have hs' := flush_same hP'.safe n' hu' h'
  obtain ⟨h1, h2⟩ := after hu hc h
  obtain ⟨h3, h4⟩ := after hu' hc' h'
  refine ⟨hP, hP', hm, h1, h3, layered_same hP hs hL, fun t => ?_, h2, h4⟩
  have ht' := hs' t
  rw [hrows] at ht'
  exact (hs t).symm.trans (fun a b c h1 h2 k hk hk' => by rw [h2 k hk', h1 k hk]) ht'

end
end Denorm
