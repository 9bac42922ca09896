import Verif.Spec.SumCalls
import Verif.Lemmas.Calls
import Verif.Lemmas.Cached
/-!
# Numbers in the calls
-/
namespace Denorm
variable {A : App} {om : OrmModel} {db db' : Db} {mem mem' : Row} {a : AggDenorm} {S : List (TableName × Col)}

/-- What `pre_save` leaves in a column of `S` is a number. -/
theorem preSaveAll_number {add : Bool} (hP : om.Proper) (hc : ∀ f ∈ om.saved, ∀ cb, f.kind = .callback cb → (om.model.table, f.col) ∈ S → ∀ db r, ∃ i, cb.value db r = .int i)
    (hA : om.Attrs S mem) (hI : ∀ r ∈ db.rows om.model.table, IntRow S om.model.table r) (h : preSaveAll A om.model db add om.saved mem = .ok mem') {f : SaveField}
    (hf : f ∈ om.saved) (hS : (om.model.table, f.col) ∈ S) : ∃ i, mem' f.col = .int i := by
  obtain ⟨mid, _, h2⟩ := preSaveAll_at h hP.cols hP.pk f hf
  cases hk : f.kind with
  | plain =>
    rw [preSaveAll_keeps h f.col fun g hg e => by rw [col_inj hP.cols hg hf e]; exact hk]
    exact hA f hf hk hS
  | callback cb =>
    simp only [SaveField.preSave, hk, Except.ok.injEq] at h2
    exact h2 ▸ hc f hf cb hk hS db mid
  | cacheKey =>
    simp only [SaveField.preSave, hk, Except.ok.injEq] at h2
    exact ⟨_, h2.symm⟩
  | aggregate =>
    cases add with
    | true =>
      simp only [SaveField.preSave, hk, if_true, Except.ok.injEq] at h2
      exact ⟨_, h2.symm⟩
    | false =>
      simp only [SaveField.preSave, hk, Bool.false_eq_true, if_false] at h2
      cases hfd : (db.rows om.model.table).find? fun r => Val.sqlEq (r om.model.pk) (mid om.model.pk) with
      | none => rw [hfd] at h2; cases h2
      | some r =>
        rw [hfd] at h2
        simp only [Except.ok.injEq] at h2
        exact h2 ▸ hI r (List.mem_of_find?_eq_some hfd) f.col hS

theorem preSaveAll_intRow {add : Bool} (hP : om.Proper) (hN : om.Numbers S) (hA : om.Attrs S mem) (hI : ∀ r ∈ db.rows om.model.table, IntRow S om.model.table r)
    (h : preSaveAll A om.model db add om.saved mem = .ok mem') (k : Val) : IntRow S om.model.table (mem'.set om.model.pk k) := by
  intro c hc
  obtain ⟨f, hf, rfl⟩ := List.mem_map.1 (hN.cols c hc)
  have hne : f.col ≠ om.model.pk := fun e => hP.pk (List.mem_map.2 ⟨f, hf, e⟩)
  simp only [Row.set, hne, if_false]
  exact preSaveAll_number hP hN.callbacks hA hI h hf hc

theorem preSaveAll_intRow' {add : Bool} (hP : om.Proper) (hN : om.Numbers S) (hA : om.Attrs S mem) (hI : ∀ r ∈ db.rows om.model.table, IntRow S om.model.table r)
    (h : preSaveAll A om.model db add om.saved mem = .ok mem') : IntRow S om.model.table mem' := by
  intro c hc
  obtain ⟨f, hf, rfl⟩ := List.mem_map.1 (hN.cols c hc)
  exact preSaveAll_number hP hN.callbacks hA hI h hf hc

theorem aggLegal_of {s : Stmt} (hl : CountLegal a db s) (hi : match s with
    | .insert t rs => ∀ r ∈ rs, IntRow S t r
    | .update t _ σ => ∀ x r, IntRow S t r → IntRow S t (σ x r)
    | .delete _ _ => True) : AggLegal a S db s := by
  cases s with
  | insert t rs => exact ⟨hi, hl⟩
  | update t w σ => exact ⟨hi, hl⟩
  | delete => trivial

theorem updateOnly_ints {cols : List Col} (h : ∀ c ∈ cols, (om.model.table, c) ∈ S → ∃ i, mem c = .int i) : ∀ (_ : Int) (r : Row), IntRow S om.model.table r →
    IntRow S om.model.table (fun c => if c ∈ cols then mem c else r c) := by
  intro x r hr c hc
  show ∃ i, (if c ∈ cols then mem c else r c) = .int i
  by_cases ho : c ∈ cols
  · rw [if_pos ho]; exact h c ho hc
  · rw [if_neg ho]; exact hr c hc

/-- A call of a program keeps an aggregate right, and numbers in the columns `S`. -/
theorem sum_call {D : List Denorm} (hE : Installed A.engine D) (hD : AggDeclared A.engine.backend D a) (hN : NoReentry A.engine) (hS : IntClosed A.engine.backend D S)
    (hm : (a.model.table, a.fieldname) ∈ S) {c : OrmCall} (hL : SumCall A a S db c) (h : A.call db c = .ok db') (hI : ∀ t, ∀ r ∈ db.rows t, IntRow S t r) (hok : AggOk a db) :
    AggOk a db' ∧ ∀ t, ∀ r ∈ db'.rows t, IntRow S t r := by
  have run : ∀ {s : Stmt}, A.engine.exec A.fuel s db = .ok db' → AggLegal a S db s → AggOk a db' ∧ ∀ t, ∀ r ∈ db'.rows t, IntRow S t r := fun {s} he hl =>
    agg_exec hE hD hN hS hm hl hI hok he
  cases c with
  | save om mem =>
    obtain ⟨⟨d, mem'⟩, h1, rfl⟩ := callErr_ok h
    obtain ⟨⟨hP, hH, hu, hn⟩, hB, hA⟩ := hL
    rcases save_issues h1 with ⟨⟨r, hr, hk, _⟩, hp, _⟩ | ⟨hi, mem1, hp1, hp2, he⟩
    · refine C13_sum_right hE hD hN hS hm hP hH hu hn hr hk h1 (fun c hc hS => ?_) hI hok
      obtain ⟨f, hf, rfl, _⟩ := mem_otherCols.1 hc
      exact preSaveAll_number hP hB.callbacks hA (hI _) hp hf hS
    · have hA1 : om.Attrs S mem1 := fun f hf hk hS => preSaveAll_number hP hB.callbacks hA (hI _) hp1 hf hS
      have hints : ∀ r ∈ [mem'], IntRow S om.model.table r := fun r hr => List.mem_singleton.1 hr ▸ preSaveAll_intRow' hP hB hA1 (hI _) hp2
      by_cases ht : om.model.table = a.model.table
      · obtain ⟨_, f, hf, h2, h3⟩ := hH ht
        obtain ⟨mid, h4, h5⟩ := preSaveAll_at hp1 hP.cols hP.pk f hf
        refine absurd ?_ hi
        cases hkind : f.kind with
        | aggregate =>
          simp only [SaveField.preSave, hkind, Bool.false_eq_true, if_false] at h5
          cases hfd : (db.rows om.model.table).find? fun r => Val.sqlEq (r om.model.pk) (mid om.model.pk) with
          | none => rw [hfd] at h5; cases h5
          | some r =>
            have hq := List.find?_some hfd
            have := Val.sqlEq_iff.1 hq
            exact ⟨r, List.mem_of_find?_eq_some hfd, this.1.trans h4, hn⟩
        | _ => rw [hkind] at h3; simp [Kind.isAggregate] at h3
      · exact run he (aggLegal_of (countLegal_elsewhere ht) hints)
  | saveFields om cols mem =>
    simp only [App.call] at h
    obtain ⟨⟨hP, hH, hu, hn⟩, hB, hA⟩ := hL
    cases hs : A.saveFields om cols mem db with
    | error e => rw [hs] at h; cases h
    | ok x =>
      rw [hs] at h
      cases h
      rcases saveFields_issues hs with ⟨e, _⟩ | ⟨⟨r, hr, hk, _⟩, hp, he⟩
      · rw [e]; exact ⟨hok, hI⟩
      · have hP' := restrict_proper hP cols
        have hpk : x.2 om.model.pk = mem om.model.pk := preSaveAll_pk (om := om.restrict cols) hP' hp
        have hagg : ∀ f ∈ (om.restrict cols).saved, f.kind.isAggregate = true → x.2 f.col = r f.col := fun f hf ha =>
          preSaveAll_aggregate (om := om.restrict cols) hP' hu hr hk hn hp hf ha
        rw [saveUpdate_eq_only (om := om.restrict cols) hu hr (hk.trans hpk.symm) (show x.2 om.model.pk ≠ .null from hpk ▸ hn) hagg] at he
        refine run he (aggLegal_of (updateOnly_legal_sub (om := om) hP hH fun _ => restrict_other) (updateOnly_ints fun c hc hS => ?_))
        obtain ⟨f, hf, rfl, _⟩ := mem_otherCols.1 hc
        exact preSaveAll_number (om := om.restrict cols) hP' (fun g hg => hB.callbacks g (List.mem_filter.1 hg).1) hA (hI _) hp hf hS
  | create om mem k =>
    obtain ⟨⟨d, mem'⟩, h1, rfl⟩ := callErr_ok h
    obtain ⟨⟨hP, hH, hk⟩, hB, hA⟩ := hL
    obtain ⟨mem1, hp, e, he⟩ := create_issues h1
    refine run he (aggLegal_of (fun ht => ⟨fun r hr => ?_, fun _ => List.pairwise_singleton ..⟩) fun r hr => ?_)
    · rw [List.mem_singleton.1 hr, e]
      refine ⟨holds_zero hP hH ht hp, ?_⟩
      rw [← (hH ht).1]
      simpa [Row.set] using hk ht
    · rw [List.mem_singleton.1 hr, e]
      exact preSaveAll_intRow hP hB hA (hI _) hp k
  | bulkCreate om objs =>
    obtain ⟨d, h1, rfl⟩ := callErr_ok h
    obtain ⟨⟨hP, hH, hk⟩, hB, hA⟩ := hL
    obtain ⟨rs, hrs, he⟩ := bulkCreate_issues h1
    refine run he (aggLegal_of (fun ht => ⟨fun r hr => ?_, fun e => absurd (e.symm.trans ht) (hk ht).1⟩) fun r hr => ?_)
    · obtain ⟨o, ho, mem1, hp, rfl⟩ := preSaveObjs_each hrs r hr
      refine ⟨holds_zero hP hH ht hp, ?_⟩
      rw [← (hH ht).1]
      simpa [Row.set] using (hk ht).2 o.2 (List.mem_map.2 ⟨o, ho, rfl⟩)
    · obtain ⟨o, ho, mem1, hp, rfl⟩ := preSaveObjs_each hrs r hr
      exact preSaveAll_intRow hP hB (hA o ho) (hI _) hp o.2
  | load om mem =>
    obtain ⟨d, h1, rfl⟩ := callErr_ok h
    obtain ⟨ht, hA⟩ := hL
    rcases load_issues h1 with ⟨_, he⟩ | ⟨_, he⟩
    · exact run he (aggLegal_of (countLegal_elsewhere ht) (updateOnly_ints fun c _ hS => hA c hS))
    · exact run he (aggLegal_of (countLegal_elsewhere ht) fun r hr => List.mem_singleton.1 hr ▸ hA)
  | stmt s =>
    obtain ⟨d, h1, rfl⟩ := callErr_ok h
    exact run (exec_ok h1) hL

end Denorm
