import Verif.Lemmas.FieldOrder
/-!
# Acyclic fields have layers, and one solution
-/
namespace Denorm

section
variable {A A' : App} {D : List Denorm} {cbs : List Callback} {rank : FieldAt → Nat} {L : Nat} {db e e' : Db}

theorem mem_allFields {cb : Callback} (hcb : cb ∈ cbs) {x : Row} (hx : x ∈ db.rows cb.model.table) : cb.place x ∈ allFields cbs db :=
  List.mem_flatMap.2 ⟨cb, hcb, List.mem_map.2 ⟨x, hx, rfl⟩⟩

open Classical in
/-- The layer of a field: how many fields it is computed from. -/
theorem fieldsLayered_of_acyclic (ha : FieldsAcyclic cbs db) :
    FieldsLayered cbs (fun q => (allFields cbs db).countP fun p => decide (ComputedFrom cbs db p q)) (allFields cbs db).length db where
  own := by
    intro cb hcb cb' hcb' ht hc x hx
    have hd := ComputedFrom.own hcb hcb' ht hc hx
    exact countP_lt (fun p h => by simp only [decide_eq_true_eq] at h ⊢; exact .trans h hd) (mem_allFields hcb' (by rw [ht]; exact hx))
      (by simpa using ha _) (by simpa using hd)
  related := by
    intro cb hcb cb' hcb' d hd ht hc x hx o ho
    have hf := ComputedFrom.related hcb hcb' hd ht hc hx ho
    exact countP_lt (fun p h => by simp only [decide_eq_true_eq] at h ⊢; exact .trans h hf)
      (mem_allFields hcb' (by rw [ht]; exact (relatedTo_of_mem ho).1)) (by simpa using ha _) (by simpa using hf)
  bound := by
    intro cb hcb x hx
    have := countP_lt (p := fun p => decide (ComputedFrom cbs db p (cb.place x))) (q := fun _ => true)
      (fun _ _ => rfl) (mem_allFields hcb hx) (by simpa using ha _) rfl
    simpa using this

/-- Layers do not depend on the markers. -/
theorem fieldsLayered_rows {db' : Db} (h : db'.rows = db.rows) (hL : FieldsLayered cbs rank L db) : FieldsLayered cbs rank L db' := by
  refine ⟨fun cb hcb cb' hcb' ht hc x hx => hL.own cb hcb cb' hcb' ht hc x (h ▸ hx), fun cb hcb cb' hcb' d hd ht hc x hx o ho => ?_,
    fun cb hcb x hx => hL.bound cb hcb x (h ▸ hx)⟩
  rw [related_rows h] at ho
  exact hL.related cb hcb cb' hcb' d hd ht hc x (h ▸ hx) o ho

/-! ## The limit on the work of one statement -/

theorem flushable_limit {om : OrmModel} {cb : Callback} (h : Flushable A D om cb db) (n : Nat) : Flushable (A.limit n) D om cb db :=
  ⟨h.installed, h.declared, h.noReentry, h.found, h.model, h.cols, h.order, h.own, fun d hd => ⟨(h.deps d hd).triggers, (h.deps d hd).self⟩,
    h.pks, ⟨h.safe.kept, h.safe.free⟩⟩

theorem together_limit (h : FlushedTogether A D cbs db) (n : Nat) : FlushedTogether (A.limit n) D cbs db := by
  refine ⟨fun cb hcb => ?_, h.own, h.reads⟩
  obtain ⟨om, h1, h2, h3⟩ := h.each cb hcb
  exact ⟨om, flushable_limit h1 n, h2, h3⟩

theorem onlyFields_limit (h : OnlyFields A D cbs) (n : Nat) : OnlyFields (A.limit n) D cbs := ⟨h.computed, h.unreached, h.steady⟩

/-! ## Two flushed databases -/

/-- Rows at the same position: the same where neither flush wrote, and in the fields below layer `ρ`. -/
def FieldTwin (A A' : App) (cbs : List Callback) (rank : FieldAt → Nat) (ρ : Nat) (t : TableName) (a b : Row) : Prop :=
  (∀ c, ¬ Touched A t c → ¬ Touched A' t c → b c = a c) ∧
  ∀ cb ∈ cbs, cb.model.table = t → rank (cb.place a) < ρ → b cb.field = a cb.field

structure FieldSolved (A A' : App) (D : List Denorm) (cbs : List Callback) (rank : FieldAt → Nat) (L : Nat) (e e' : Db) : Prop where
  project : Project A D
  project' : Project A' D
  models : A'.models = A.models
  covers : FlushedTogether A D cbs e
  covers' : FlushedTogether A' D cbs e'
  layered : FieldsLayered cbs rank L e
  rows : ∀ t, Pw (fun a b => ∀ c, ¬ Touched A t c → ¬ Touched A' t c → b c = a c) (e.rows t) (e'.rows t)
  fresh : ∀ cb ∈ cbs, ∀ r ∈ e.rows cb.model.table, r cb.field = cb.value e r
  fresh' : ∀ cb ∈ cbs, ∀ r ∈ e'.rows cb.model.table, r cb.field = cb.value e' r

theorem FieldSolved.twins (h : FieldSolved A A' D cbs rank L e e') : ∀ (ρ : Nat) (t : TableName),
    Pw (FieldTwin A A' cbs rank ρ t) (e.rows t) (e'.rows t)
  | 0, t => (h.rows t).imp fun a _ b _ hab => ⟨hab, fun _ _ _ h => absurd h (by omega)⟩
  | ρ + 1, t => (h.twins ρ t).imp fun a ha b hb hab => ⟨hab.1, by
      rintro cb hcb rfl hr
      obtain ⟨om, hF, -, -⟩ := h.covers.each cb hcb
      have hom := List.mem_of_find?_eq_some hF.found
      have hdn := hF.declared.declared
      rw [h.fresh cb hcb a ha, h.fresh' cb hcb b hb]
      simp only [Callback.value]
      congr 1
      · refine List.map_congr_left fun c hc => ?_
        have field : ∀ cb' ∈ cbs, cb'.model.table = cb.model.table → cb'.field = c → b c = a c := by
          rintro cb' hcb' ht rfl
          have : rank (cb'.place a) < rank (cb.place a) := h.layered.own cb hcb cb' hcb' ht hc a ha
          exact hab.2 cb' hcb' ht (by omega)
        by_cases h1 : Touched A cb.model.table c
        · obtain ⟨cb', hcb', ht, hf⟩ := h.covers.own cb hcb c hc h1
          exact field cb' hcb' ht hf
        · by_cases h2 : Touched A' cb.model.table c
          · obtain ⟨cb', hcb', ht, hf⟩ := h.covers'.own cb hcb c hc h2
            exact field cb' hcb' ht hf
          · exact hab.1 c h1 h2
      · refine List.map_congr_left fun d hd => ?_
        have hdd : d.dep ∈ (cb.denorm).deps := by simpa [Callback.denorm, Denorm.deps] using ⟨d, hd, rfl⟩
        have hthis := hF.declared.this d hd
        obtain ⟨hl, hk⟩ := h.project.fixed _ hdn _ hdd
        obtain ⟨hl', hk'⟩ := h.project'.fixed _ hdn _ hdd
        have hpk' := pk_untouched h.project'.safe (h.models ▸ hom)
        rw [hF.model] at hpk'
        refine (seen_related (R := FieldTwin A A' cbs rank ρ) (notBackGeneric (hF.declared.watched d hd)) ?_ ?_ (h.twins ρ) ?_ ?_).symm
        · rw [hthis]
          exact (hab.1 _ (cb_pk_untouched h.project hF) hpk').symm
        · intro c hc
          have h1 := hk c hc
          have h2 := hk' c hc
          rw [hthis] at h1 h2
          exact (hab.1 c h1 h2).symm
        · exact fun p hp x y hxy => hxy.1 _ (hl p hp) (hl' p hp)
        · intro x y hxy hx c hc
          have lower : ∀ cb' ∈ cbs, cb'.model.table = d.dep.otherTable → cb'.field = c → y c = x c := by
            rintro cb' hcb' ht rfl
            have : rank (cb'.place x) < rank (cb.place a) := h.layered.related cb hcb cb' hcb' d hd ht hc a ha x hx
            exact hxy.2 cb' hcb' ht (by omega)
          by_cases h1 : Touched A d.dep.otherTable c
          · obtain ⟨cb', hcb', ht, hf⟩ := h.covers.reads cb hcb d hd c hc h1
            exact lower cb' hcb' ht hf
          · by_cases h2 : Touched A' d.dep.otherTable c
            · obtain ⟨cb', hcb', ht, hf⟩ := h.covers'.reads cb hcb d hd c hc h2
              exact lower cb' hcb' ht hf
            · exact hxy.1 c h1 h2⟩

theorem FieldSolved.same (h : FieldSolved A A' D cbs rank L e e') (t : TableName) :
    Pw (fun a b => (∀ c, ¬ Touched A t c → ¬ Touched A' t c → b c = a c) ∧ ∀ cb ∈ cbs, cb.model.table = t → b cb.field = a cb.field)
      (e.rows t) (e'.rows t) := by
  refine (h.twins L t).imp fun a ha b _ hab => ⟨hab.1, ?_⟩
  rintro cb hcb rfl
  exact hab.2 cb hcb rfl (h.layered.bound cb hcb a ha)

/-- What holds after a flush. -/
theorem together_flush {n : Nat} (hu : KeysUnique A db) (hc : FlushedTogether A D cbs db) (h : A.flush n db = .ok (some e)) :
    FlushedTogether A D cbs e ∧ ∀ cb ∈ cbs, ∀ r ∈ e.rows cb.model.table, r cb.field = cb.value e r := by
  have hg : ∀ cb ∈ cbs, ∃ om, Good A D om cb e ∧ e.dirty = [] := fun cb hcb => by
    obtain ⟨om, h1, h2, h3⟩ := hc.each cb hcb
    exact ⟨om, good_flush n ⟨h1, hu, h2, h3⟩ h⟩
  refine ⟨⟨fun cb hcb => ?_, hc.own, hc.reads⟩, fun cb hcb r hr => ?_⟩
  · obtain ⟨om, hG, -⟩ := hg cb hcb
    exact ⟨om, hG.flushable, hG.keysOk, hG.stale⟩
  · obtain ⟨om, hG, hd⟩ := hg cb hcb
    refine Classical.byContradiction fun hne => ?_
    have := hG.stale r hr hne
    simp [Marked, hd] at this

theorem fieldSolved_of_flush {db' : Db} {n n' : Nat} (hP : Project A D) (hP' : Project A' D) (hm : A'.models = A.models)
    (hrows : db'.rows = db.rows) (hu : KeysUnique A db) (hc : FlushedTogether A D cbs db) (hc' : FlushedTogether A' D cbs db')
    (hL : FieldsLayered cbs rank L db) (h : A.flush n db = .ok (some e)) (h' : A'.flush n' db' = .ok (some e')) :
    FieldSolved A A' D cbs rank L e e' := by
  have hu' : KeysUnique A' db' := by unfold KeysUnique; rw [hm, hrows]; exact hu
  have hs := flush_same hP.safe n hu h
  have hs' := flush_same hP'.safe n' hu' h'
  obtain ⟨h1, h2⟩ := together_flush hu hc h
  obtain ⟨h3, h4⟩ := together_flush hu' hc' h'
  refine ⟨hP, hP', hm, h1, h3, fieldsLayered_same hP hc hs hL, fun t => ?_, h2, h4⟩
  have ht' := hs' t
  rw [hrows] at ht'
  exact (hs t).symm.trans (fun a b c h1 h2 k hk hk' => by rw [h2 k hk', h1 k hk]) ht'

end
end Denorm
