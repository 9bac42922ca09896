import Verif.Spec.Calls
import Verif.Lemmas.FlushRun
import Verif.Lemmas.SaveAgg
import Verif.Props.Save
/-!
# What the calls issue
-/
namespace Denorm
variable {A : App} {cb : Callback} {om : OrmModel} {db db' : Db} {mem mem' : Row}

theorem any_isRowOf {k : Val} : (db.rows om.model.table).any (isRowOf om.model k) = true ↔ ∃ r ∈ db.rows om.model.table, r om.model.pk = k ∧ k ≠ .null := by
  simp only [List.any_eq_true, isRowOf, Val.sqlEq_iff]
  exact ⟨fun ⟨r, h, e, n⟩ => ⟨r, h, e, e ▸ n⟩, fun ⟨r, h, e, n⟩ => ⟨r, h, e, e ▸ n⟩⟩

theorem restrict_cols {cols : List Col} {c : Col} (h : c ∈ (om.restrict cols).cols) : c ∈ om.cols := by
  simp only [OrmModel.cols, OrmModel.restrict] at h ⊢
  obtain ⟨f, hf, rfl⟩ := List.mem_map.1 h
  exact List.mem_map.2 ⟨f, (List.mem_filter.1 hf).1, rfl⟩

/-- What save() issues. -/
theorem save_issues (h : A.save om mem db = .ok (db', mem')) :
    (InDatabase om mem db ∧ preSaveAll A om.model db false om.saved mem = .ok mem' ∧ A.engine.exec A.fuel (saveUpdate om mem') db = .ok db') ∨
    (¬ InDatabase om mem db ∧ ∃ mem1, preSaveAll A om.model db false om.saved mem = .ok mem1 ∧ preSaveAll A om.model db true om.saved mem1 = .ok mem' ∧
      A.engine.exec A.fuel (.insert om.model.table [mem']) db = .ok db') := by
  unfold App.save at h
  cases hp : preSaveAll A om.model db false om.saved mem with
  | error e => rw [hp] at h; cases h
  | ok mem1 =>
    rw [hp] at h
    simp only at h
    split at h
    · next ha =>
      cases he : A.exec (saveUpdate om mem1) db with
      | error e => rw [he] at h; cases h
      | ok x =>
        rw [he] at h
        cases h
        exact .inl ⟨any_isRowOf.1 ha, rfl, exec_ok he⟩
    · next ha =>
      cases hp2 : preSaveAll A om.model db true om.saved mem1 with
      | error e => rw [hp2] at h; cases h
      | ok mem2 =>
        rw [hp2] at h
        simp only at h
        cases he : A.exec (.insert om.model.table [mem2]) db with
        | error e => rw [he] at h; cases h
        | ok x =>
          rw [he] at h
          cases h
          exact .inr ⟨fun hi => ha (any_isRowOf.2 hi), mem1, rfl, hp2, exec_ok he⟩

theorem saveFields_issues {cols : List Col} (h : A.saveFields om cols mem db = .ok (db', mem')) :
    (db' = db ∧ mem' = mem ∧ (om.restrict cols).saved = []) ∨
    (InDatabase om mem db ∧ preSaveAll A om.model db false (om.restrict cols).saved mem = .ok mem' ∧
      A.engine.exec A.fuel (saveUpdate (om.restrict cols) mem') db = .ok db') := by
  unfold App.saveFields at h
  split at h
  · next he => cases h; exact .inl ⟨rfl, rfl, he⟩
  · cases hp : preSaveAll A om.model db false (om.restrict cols).saved mem with
    | error e => rw [hp] at h; cases h
    | ok mem1 =>
      rw [hp] at h
      simp only at h
      split at h
      · next ha =>
        cases he : A.exec (saveUpdate (om.restrict cols) mem1) db with
        | error e => rw [he] at h; cases h
        | ok x =>
          rw [he] at h
          cases h
          exact .inr ⟨any_isRowOf.1 ha, rfl, exec_ok he⟩
      · cases h

theorem create_issues {k : Val} (h : A.create om mem k db = .ok (db', mem')) :
    ∃ mem1, preSaveAll A om.model db true om.saved mem = .ok mem1 ∧ mem' = mem1.set om.model.pk k ∧
      A.engine.exec A.fuel (.insert om.model.table [mem']) db = .ok db' := by
  unfold App.create at h
  cases hp : preSaveAll A om.model db true om.saved mem with
  | error e => rw [hp] at h; cases h
  | ok mem1 =>
    rw [hp] at h
    simp only at h
    cases he : A.exec (.insert om.model.table [mem1.set om.model.pk k]) db with
    | error e => rw [he] at h; cases h
    | ok x =>
      rw [he] at h
      cases h
      exact ⟨mem1, rfl, rfl, exec_ok he⟩

theorem preSaveObjs_each : ∀ {objs : List (Row × Val)} {rs : List Row}, preSaveObjs A om db objs = .ok rs → ∀ r ∈ rs,
    ∃ o ∈ objs, ∃ mem1, preSaveAll A om.model db true om.saved o.1 = .ok mem1 ∧ r = mem1.set om.model.pk o.2
  | [], _, h, r, hr => by cases h; cases hr
  | (mem, k) :: objs, rs, h, r, hr => by
    unfold preSaveObjs at h
    cases hp : preSaveAll A om.model db true om.saved mem with
    | error e => rw [hp] at h; cases h
    | ok mem1 =>
      rw [hp] at h
      simp only at h
      cases ho : preSaveObjs A om db objs with
      | error e => rw [ho] at h; cases h
      | ok rs' =>
        rw [ho] at h
        cases h
        rcases List.mem_cons.1 hr with rfl | hr
        · exact ⟨(mem, k), List.mem_cons_self .., mem1, hp, rfl⟩
        · obtain ⟨o, ho', h'⟩ := preSaveObjs_each ho r hr
          exact ⟨o, List.mem_cons_of_mem _ ho', h'⟩

theorem bulkCreate_issues {objs : List (Row × Val)} (h : A.bulkCreate om objs db = .ok db') :
    ∃ rs, preSaveObjs A om db objs = .ok rs ∧ A.engine.exec A.fuel (.insert om.model.table rs) db = .ok db' := by
  unfold App.bulkCreate at h
  cases hp : preSaveObjs A om db objs with
  | error e => rw [hp] at h; cases h
  | ok rs => rw [hp] at h; exact ⟨rs, rfl, exec_ok h⟩

theorem load_issues (h : A.load om mem db = .ok db') :
    (InDatabase om mem db ∧ A.engine.exec A.fuel (saveUpdate om mem) db = .ok db') ∨
    (¬ InDatabase om mem db ∧ A.engine.exec A.fuel (.insert om.model.table [mem]) db = .ok db') := by
  unfold App.load at h
  split at h
  · next ha => exact .inl ⟨any_isRowOf.1 ha, exec_ok h⟩
  · next ha => exact .inr ⟨fun hi => ha (any_isRowOf.2 hi), exec_ok h⟩

theorem callErr_ok {α β : Type} {f : α → β} {x : Except OrmErr α} {b : β} (h : callErr f x = .ok b) : ∃ a, x = .ok a ∧ f a = b := by
  cases x with
  | ok a => cases h; exact ⟨a, rfl, rfl⟩
  | error e => cases h

theorem legal_saveUpdate {m : Row} (hc : ∀ p ∈ cb.pks, p.1 = om.model.table → p.2 ∉ om.cols) : LegalStmt A.engine cb db (saveUpdate om m) := by
  intro p hp ht x r
  simp [show p.2 ∉ om.saved.map SaveField.col from hc p hp ht]

theorem legal_insert_of {rs : List Row} {t : TableName} (h : ∀ r ∈ rs, LegalStmt A.engine cb db (.insert t [r])) : LegalStmt A.engine cb db (.insert t rs) :=
  fun r hr => h r hr r (List.mem_singleton_self r)

/-- A legal call is a legal statement, or nothing. -/
theorem call_legal (hpk : ∀ om ∈ A.models, om.model.pk ∉ om.cols) (hp : ∀ om ∈ A.models, ∀ p ∈ cb.pks, p.1 = om.model.table → p.2 ∉ om.cols)
    {c : OrmCall} (hL : LegalCall A cb db c) (h : A.call db c = .ok db') :
    db' = db ∨ ∃ s, LegalStmt A.engine cb db s ∧ A.engine.exec A.fuel s db = .ok db' := by
  cases c with
  | save om mem =>
    obtain ⟨⟨d, mem'⟩, h1, rfl⟩ := callErr_ok h
    rcases save_issues h1 with ⟨_, _, he⟩ | ⟨hn, mem1, hp1, hp2, he⟩
    · exact .inr ⟨_, legal_saveUpdate (hp om hL.1), he⟩
    · refine .inr ⟨_, hL.2 hn mem' ?_, he⟩
      have : ∀ f ∈ om.saved, om.model.pk ≠ f.col := fun f hf e => hpk om hL.1 (List.mem_map.2 ⟨f, hf, e.symm⟩)
      rw [preSaveAll_other hp2 _ fun f hf e => this f hf e.symm, preSaveAll_other hp1 _ fun f hf e => this f hf e.symm]
  | saveFields om cols mem =>
    simp only [App.call] at h
    cases hs : A.saveFields om cols mem db with
    | error e => rw [hs] at h; cases h
    | ok x =>
      rw [hs] at h
      cases h
      rcases saveFields_issues hs with ⟨e, _⟩ | ⟨_, _, he⟩
      · exact .inl e
      · exact .inr ⟨_, legal_saveUpdate (om := om.restrict cols) fun p h1 h2 h3 => hp om hL p h1 h2 (restrict_cols h3), he⟩
  | create om mem k =>
    obtain ⟨⟨d, mem'⟩, h1, rfl⟩ := callErr_ok h
    obtain ⟨mem1, _, e, he⟩ := create_issues h1
    exact .inr ⟨_, hL mem' (by rw [e]; simp [Row.set]), he⟩
  | bulkCreate om objs =>
    obtain ⟨d, h1, rfl⟩ := callErr_ok h
    obtain ⟨rs, hrs, he⟩ := bulkCreate_issues h1
    refine .inr ⟨_, legal_insert_of fun r hr => ?_, he⟩
    obtain ⟨o, ho, mem1, _, rfl⟩ := preSaveObjs_each hrs r hr
    exact hL o ho _ (by simp [Row.set])
  | load om mem =>
    obtain ⟨d, h1, rfl⟩ := callErr_ok h
    rcases load_issues h1 with ⟨_, he⟩ | ⟨hn, he⟩
    · exact .inr ⟨_, legal_saveUpdate (hp om hL.1), he⟩
    · exact .inr ⟨_, hL.2 hn mem rfl, he⟩
  | stmt s =>
    obtain ⟨d, h1, rfl⟩ := callErr_ok h
    exact .inr ⟨s, hL, exec_ok h1⟩

end Denorm

namespace Denorm
variable {A : App} {om : OrmModel} {db db' : Db} {mem mem' : Row} {a : AggDenorm}

theorem restrict_proper (hP : om.Proper) (cols : List Col) : (om.restrict cols).Proper where
  cols := (hP.cols).sublist ((List.filter_sublist).map SaveField.col)
  pk := fun h => hP.pk (restrict_cols h)

theorem restrict_other {cols : List Col} {c : Col} (h : c ∈ (om.restrict cols).otherCols) : c ∈ om.otherCols := by
  simp only [OrmModel.otherCols, OrmModel.restrict, List.mem_map, List.mem_filter] at h ⊢
  obtain ⟨f, ⟨⟨h1, _⟩, h2⟩, rfl⟩ := h
  exact ⟨f, ⟨h1, h2⟩, rfl⟩

theorem updateOnly_legal_sub {k : Val} {cols : List Col} (hP : om.Proper) (hH : om.Holds a) (hs : ∀ c ∈ cols, c ∈ om.otherCols) :
    CountLegal a db (updateOnly om.model k cols mem) := by
  intro ht x r
  have := updateOnly_legal (db := db) (k := k) (mem := fun _ => .int 1) hP hH ht x
  have no : ∀ c, (∀ r : Row, (if c ∈ om.otherCols then Val.int 1 else r c) = r c) → c ∉ cols := by
    intro c hc hm
    have := hc fun _ => .int 0
    rw [if_pos (hs c hm)] at this
    cases this
  constructor
  · exact if_neg (no _ fun r => (this r).1)
  · exact if_neg (no _ fun r => (this r).2)

/-- Nothing but a CountField's own instances matters. -/
theorem countLegal_elsewhere {s : Stmt} (h : s.table ≠ a.model.table) : CountLegal a db s := by
  cases s with
  | insert t rs => exact fun e => absurd e h
  | update t w σ => exact fun e => absurd e h
  | delete => trivial

theorem holds_zero (hP : om.Proper) (hH : om.Holds a) (ht : om.model.table = a.model.table) {k : Val} {mem1 : Row}
    (hp : preSaveAll A om.model db true om.saved mem = .ok mem1) : (mem1.set om.model.pk k) a.fieldname = .int 0 := by
  obtain ⟨_, f, hf, h2, h3⟩ := hH ht
  have hne : f.col ≠ om.model.pk := fun e => hP.pk (List.mem_map.2 ⟨f, hf, e⟩)
  obtain ⟨mid, _, h4⟩ := preSaveAll_at hp hP.cols hP.pk f hf
  rw [← h2]
  simp only [Row.set, hne, if_false]
  cases hkind : f.kind with
  | aggregate =>
    simp only [SaveField.preSave, hkind, if_true, Except.ok.injEq] at h4
    exact h4.symm
  | _ => rw [hkind] at h3; simp [Kind.isAggregate] at h3

/-- A call of a program keeps a CountField right. -/
theorem count_call {D : List Denorm} (hE : Installed A.engine D) (hD : AggDeclared A.engine.backend D a) (hN : NoReentry A.engine) (hc : a.agg = .count)
    {c : OrmCall} (hL : CountCall A a db c) (h : A.call db c = .ok db') (hok : AggOk a db) : AggOk a db' := by
  have run : ∀ {s : Stmt}, A.engine.exec A.fuel s db = .ok db' → CountLegal a db s → AggOk a db' := fun {s} he hl =>
    (agg_exec hE hD hN (count_closed hD hc) (by simp) (countLegal_agg hl) (aggOk_ints hok) hok he).1
  cases c with
  | save om mem =>
    obtain ⟨⟨d, mem'⟩, h1, rfl⟩ := callErr_ok h
    obtain ⟨hP, hH, hu, hn⟩ := hL
    rcases save_issues h1 with ⟨⟨r, hr, hk, _⟩, _, _⟩ | ⟨hi, mem1, hp1, hp2, he⟩
    · exact C13_count_right hE hD hN hc hP hH hu hn hr hk h1 hok
    · by_cases ht : om.model.table = a.model.table
      · obtain ⟨_, f, hf, h2, h3⟩ := hH ht
        obtain ⟨mid, h4, h5⟩ := preSaveAll_at hp1 hP.cols hP.pk f hf
        refine absurd ?_ hi
        cases hkind : f.kind with
        | aggregate =>
          simp only [SaveField.preSave, hkind, Bool.false_eq_true, if_false] at h5
          cases hfd : (db.rows om.model.table).find? fun r => Val.sqlEq (r om.model.pk) (mid om.model.pk) with
          | none => rw [hfd] at h5; cases h5
          | some r =>
            have hq := List.find?_some hfd
            have := Val.sqlEq_iff.1 hq
            exact ⟨r, List.mem_of_find?_eq_some hfd, this.1.trans h4, hn⟩
        | _ => rw [hkind] at h3; simp [Kind.isAggregate] at h3
      · exact run he (countLegal_elsewhere ht)
  | saveFields om cols mem =>
    simp only [App.call] at h
    obtain ⟨hP, hH, hu, hn⟩ := hL
    cases hs : A.saveFields om cols mem db with
    | error e => rw [hs] at h; cases h
    | ok x =>
      rw [hs] at h
      cases h
      rcases saveFields_issues hs with ⟨e, _⟩ | ⟨⟨r, hr, hk, _⟩, hp, he⟩
      · rw [e]; exact hok
      · have hP' := restrict_proper hP cols
        have hpk : x.2 om.model.pk = mem om.model.pk := preSaveAll_pk (om := om.restrict cols) hP' hp
        have hagg : ∀ f ∈ (om.restrict cols).saved, f.kind.isAggregate = true → x.2 f.col = r f.col := fun f hf ha =>
          preSaveAll_aggregate (om := om.restrict cols) hP' hu hr hk hn hp hf ha
        rw [saveUpdate_eq_only (om := om.restrict cols) hu hr (hk.trans hpk.symm) (show x.2 om.model.pk ≠ .null from hpk ▸ hn) hagg] at he
        exact run he (updateOnly_legal_sub (om := om) hP hH fun _ => restrict_other)
  | create om mem k =>
    obtain ⟨⟨d, mem'⟩, h1, rfl⟩ := callErr_ok h
    obtain ⟨hP, hH, hk⟩ := hL
    obtain ⟨mem1, hp, e, he⟩ := create_issues h1
    refine run he fun ht => ⟨fun r hr => ?_, fun _ => List.pairwise_singleton ..⟩
    rw [List.mem_singleton.1 hr, e]
    refine ⟨holds_zero hP hH ht hp, ?_⟩
    rw [← (hH ht).1]
    simpa [Row.set] using hk ht
  | bulkCreate om objs =>
    obtain ⟨d, h1, rfl⟩ := callErr_ok h
    obtain ⟨hP, hH, hk⟩ := hL
    obtain ⟨rs, hrs, he⟩ := bulkCreate_issues h1
    refine run he fun ht => ⟨fun r hr => ?_, fun e => absurd (e.symm.trans ht) (hk ht).1⟩
    obtain ⟨o, ho, mem1, hp, rfl⟩ := preSaveObjs_each hrs r hr
    refine ⟨holds_zero hP hH ht hp, ?_⟩
    rw [← (hH ht).1]
    simpa [Row.set] using (hk ht).2 o.2 (List.mem_map.2 ⟨o, ho, rfl⟩)
  | load om mem =>
    obtain ⟨d, h1, rfl⟩ := callErr_ok h
    rcases load_issues h1 with ⟨_, he⟩ | ⟨_, he⟩
    · exact run he (countLegal_elsewhere hL)
    · exact run he (countLegal_elsewhere hL)
  | stmt s =>
    obtain ⟨d, h1, rfl⟩ := callErr_ok h
    exact run (exec_ok h1) hL

end Denorm
