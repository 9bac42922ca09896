import Verif.Lemmas.Held
import Verif.Lemmas.SumCalls
/-!
# Numbers, saved with instances that hold related objects
-/
namespace Denorm
variable {A : App} {view : Callback → Db} {om : OrmModel} {db db' : Db} {mem mem' : Row} {a : AggDenorm} {S : List (TableName × Col)}

/-- What `pre_save` leaves in a column that is not an aggregate's is a number, if callbacks return numbers and the plain attributes are numbers. -/
theorem preSaveAllHeld_number {m : Model} {add : Bool} : ∀ {fs : List SaveField} {mem mem' : Row}, (fs.map SaveField.col).Nodup →
    (∀ f ∈ fs, ∀ cb, f.kind = .callback cb → (m.table, f.col) ∈ S → ∀ db r, ∃ i, cb.value db r = .int i) →
    (∀ f ∈ fs, f.kind = .plain → (m.table, f.col) ∈ S → ∃ i, mem f.col = .int i) → preSaveAllHeld A view m db add fs mem = .ok mem' →
    ∀ f ∈ fs, f.kind ≠ .aggregate → (m.table, f.col) ∈ S → ∃ i, mem' f.col = .int i
  | [], _, _, _, _, _, _, _, hf, _, _ => by cases hf
  | g :: fs, mem, mem', hn, hc, hA, h, f, hf, ha, hS => by
    simp only [List.map_cons, List.nodup_cons] at hn
    simp only [preSaveAllHeld] at h
    cases hv : g.preSaveHeld A view m db add mem with
    | error e => rw [hv] at h; cases h
    | ok v =>
      rw [hv] at h
      rcases List.mem_cons.1 hf with rfl | hf
      · rw [preSaveAllHeld_other h f.col fun g hg e => hn.1 (List.mem_map.2 ⟨g, hg, e⟩), Row.set, if_pos rfl]
        cases hk : f.kind with
        | plain =>
          simp only [SaveField.preSaveHeld, SaveField.preSave, hk, Except.ok.injEq] at hv
          exact hv ▸ hA f (List.mem_cons_self ..) hk hS
        | callback cb =>
          simp only [SaveField.preSaveHeld, hk, Except.ok.injEq] at hv
          exact hv ▸ hc f (List.mem_cons_self ..) cb hk hS _ _
        | cacheKey =>
          simp only [SaveField.preSaveHeld, SaveField.preSave, hk, Except.ok.injEq] at hv
          exact ⟨_, hv.symm⟩
        | aggregate => exact absurd hk ha
      · refine preSaveAllHeld_number hn.2 (fun f hf => hc f (List.mem_cons_of_mem _ hf)) (fun p hp hk hS => ?_) h f hf ha hS
        rw [Row.set, if_neg fun e => hn.1 (List.mem_map.2 ⟨p, hp, e⟩)]
        exact hA p (List.mem_cons_of_mem _ hp) hk hS

theorem asPlain_attrs (h : ∀ f ∈ om.saved, f.kind ≠ .aggregate → (om.model.table, f.col) ∈ S → ∃ i, mem f.col = .int i) : om.asPlain.Attrs S mem := by
  intro f hf hk hS
  obtain ⟨g, hg, rfl⟩ := List.mem_map.1 hf
  refine h g hg (fun e => ?_) hS
  simp only [SaveField.asPlain, e] at hk
  cases hk

theorem asPlain_numbers (h : om.Numbers S) : om.asPlain.Numbers S := by
  refine ⟨fun c hc => ?_, fun f hf cb hk => ?_⟩
  · rw [OrmModel.cols, asPlain_cols]
    exact h.cols c hc
  · obtain ⟨g, _, rfl⟩ := List.mem_map.1 hf
    cases hg : g.kind <;> simp only [SaveField.asPlain, hg] at hk <;> cases hk

theorem saveHeld_attrs (hP : om.Proper) (hN : om.Numbers S) (hA : om.Attrs S mem) (h : A.saveHeld view om mem db = .ok (db', mem')) : om.asPlain.Attrs S mem' := by
  unfold App.saveHeld at h
  cases h1 : preSaveAllHeld A view om.model db false om.saved mem with
  | error e => rw [h1] at h; cases h
  | ok mem1 =>
    rw [h1] at h
    simp only at h
    have n1 := preSaveAllHeld_number hP.cols hN.callbacks hA h1
    by_cases ha : (db.rows om.model.table).any (isRowOf om.model (mem om.model.pk)) = true
    · rw [if_pos ha] at h
      cases he : A.exec (saveUpdate om mem1) db with
      | error e => rw [he] at h; cases h
      | ok d =>
        rw [he] at h
        simp only [Except.ok.injEq, Prod.mk.injEq] at h
        obtain ⟨rfl, rfl⟩ := h
        exact asPlain_attrs n1
    · rw [if_neg ha] at h
      cases h2 : preSaveAllHeld A view om.model db true om.saved mem1 with
      | error e => rw [h2] at h; cases h
      | ok mem2 =>
        rw [h2] at h
        simp only at h
        cases he : A.exec (.insert om.model.table [mem2]) db with
        | error e => rw [he] at h; cases h
        | ok d =>
          rw [he] at h
          simp only [Except.ok.injEq, Prod.mk.injEq] at h
          obtain ⟨rfl, rfl⟩ := h
          exact asPlain_attrs (preSaveAllHeld_number hP.cols hN.callbacks (fun f hf hk hS => n1 f hf (by rw [hk]; exact Kind.noConfusion) hS) h2)

theorem createHeld_attrs (hP : om.Proper) (hN : om.Numbers S) (hA : om.Attrs S mem) {k : Val} (h : A.createHeld view om mem k db = .ok (db', mem')) : om.asPlain.Attrs S mem' := by
  unfold App.createHeld at h
  cases h1 : preSaveAllHeld A view om.model db true om.saved mem with
  | error e => rw [h1] at h; cases h
  | ok mem1 =>
    rw [h1] at h
    simp only at h
    cases he : A.exec (.insert om.model.table [mem1.set om.model.pk k]) db with
    | error e => rw [he] at h; cases h
    | ok d =>
      rw [he] at h
      simp only [Except.ok.injEq, Prod.mk.injEq] at h
      obtain ⟨rfl, rfl⟩ := h
      refine asPlain_attrs fun f hf hk hS => ?_
      rw [Row.set, if_neg fun e => hP.pk (List.mem_map.2 ⟨f, hf, e⟩)]
      exact preSaveAllHeld_number hP.cols hN.callbacks hA h1 f hf hk hS

theorem saveFieldsHeld_attrs (hP : om.Proper) (hN : om.Numbers S) {cols : List Col} (hA : (om.restrict cols).Attrs S mem) (h : A.saveFieldsHeld view om cols mem db = .ok (db', mem')) :
    (om.asPlain.restrict cols).Attrs S mem' := by
  rw [restrict_asPlain]
  unfold App.saveFieldsHeld at h
  by_cases hz : (om.restrict cols).saved = []
  · intro f hf
    simp [OrmModel.asPlain, hz] at hf
  · rw [if_neg hz] at h
    cases h1 : preSaveAllHeld A view om.model db false (om.restrict cols).saved mem with
    | error e => rw [h1] at h; cases h
    | ok mem1 =>
      rw [h1] at h
      simp only at h
      by_cases ha : (db.rows om.model.table).any (isRowOf om.model (mem om.model.pk)) = true
      · rw [if_pos ha] at h
        cases he : A.exec (saveUpdate (om.restrict cols) mem1) db with
        | error e => rw [he] at h; cases h
        | ok d =>
          rw [he] at h
          simp only [Except.ok.injEq, Prod.mk.injEq] at h
          obtain ⟨rfl, rfl⟩ := h
          exact asPlain_attrs (om := om.restrict cols) (preSaveAllHeld_number (restrict_proper hP cols).cols (fun f hf => hN.callbacks f (List.mem_filter.1 hf).1) hA h1)
      · rw [if_neg ha] at h; cases h

theorem heldCall_sum {c : HeldCall} (hL : SumCall A a S db c.bare) (h : A.heldCall db c = .ok db') : ∃ c', SumCall A a S db c' ∧ A.call db c' = .ok db' := by
  cases c with
  | save view om mem =>
    obtain ⟨hC, hN, hA⟩ := hL
    obtain ⟨⟨d, mem'⟩, h1, rfl⟩ := callErr_ok h
    obtain ⟨hk, hs⟩ := saveHeld_plain hC.1 h1
    exact ⟨.save om.asPlain mem', ⟨⟨asPlain_proper hC.1, asPlain_holds hC.2.1, hC.2.2.1, fun e => hC.2.2.2 (hk.symm.trans e)⟩, asPlain_numbers hN, saveHeld_attrs hC.1 hN hA h1⟩,
      by simp [App.call, callErr, hs]⟩
  | saveFields view om cols mem =>
    obtain ⟨hC, hN, hA⟩ := hL
    simp only [App.heldCall] at h
    cases hs : A.saveFieldsHeld view om cols mem db with
    | error e => rw [hs] at h; cases h
    | ok x =>
      rw [hs] at h
      obtain ⟨d, mem'⟩ := x
      obtain ⟨hk, hs'⟩ := saveFieldsHeld_plain hC.1 hs
      cases h
      exact ⟨.saveFields om.asPlain cols mem', ⟨⟨asPlain_proper hC.1, asPlain_holds hC.2.1, hC.2.2.1, fun e => hC.2.2.2 (hk.symm.trans e)⟩, asPlain_numbers hN, saveFieldsHeld_attrs hC.1 hN hA hs⟩,
        by simp [App.call, hs']⟩
  | create view om mem k =>
    obtain ⟨hC, hN, hA⟩ := hL
    obtain ⟨⟨d, mem'⟩, h1, rfl⟩ := callErr_ok h
    have hs := createHeld_plain hC.1 h1
    exact ⟨.create om.asPlain mem' k, ⟨⟨asPlain_proper hC.1, asPlain_holds hC.2.1, hC.2.2⟩, asPlain_numbers hN, createHeld_attrs hC.1 hN hA h1⟩, by simp [App.call, callErr, hs]⟩
  | call c => exact ⟨c, hL, h⟩

end Denorm
