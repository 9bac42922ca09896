import Verif.Spec.TypedCalls
import Verif.Lemmas.Typed
import Verif.Lemmas.HeldSum
/-!
# Columns that change what they store: a call is a call that writes the stored values as they are
-/
namespace Denorm

section
variable {τ : ColumnTypes} {A : App} {om : OrmModel} {db db' : Db} {mem mem' : Row} {S : List (TableName × Col)}

theorem preSaveAll_asIs {m : Model} {add : Bool} {x : Row} : ∀ {fs : List SaveField}, (∀ f ∈ fs, f.kind = .aggregate → f.preSave A m db add x = .ok (x f.col)) →
    preSaveAll A m db add (fs.map SaveField.asPlain) x = .ok x
  | [], _ => rfl
  | f :: fs, h => by
    have hp : f.asPlain.preSave A m db add x = .ok (x f.col) := by
      cases hk : f.kind with
      | aggregate =>
        have he : f.asPlain = f := by cases f; simp only at hk; subst hk; rfl
        rw [he]
        exact h f (List.mem_cons_self ..) hk
      | _ => simp only [SaveField.preSave, SaveField.asPlain, hk]
    simp only [List.map_cons, preSaveAll, hp]
    rw [show f.asPlain.col = f.col from rfl, Row.set_same rfl]
    exact preSaveAll_asIs fun g hg => h g (List.mem_cons_of_mem _ hg)

/-- What `pre_save` left in an aggregate's column. -/
theorem preSaveAll_agg {m : Model} {add : Bool} : ∀ {fs : List SaveField} {mem mem' : Row}, (fs.map SaveField.col).Nodup → m.pk ∉ fs.map SaveField.col →
    preSaveAll A m db add fs mem = .ok mem' → ∀ f ∈ fs, f.kind = .aggregate → f.preSave A m db add mem = .ok (mem' f.col)
  | [], _, _, _, _, _, f, hf, _ => by cases hf
  | g :: fs, mem, mem', hn, hpk, h, f, hf, hk => by
    simp only [List.map_cons, List.nodup_cons] at hn
    simp only [List.map_cons, List.mem_cons, not_or] at hpk
    simp only [preSaveAll] at h
    cases hv : g.preSave A m db add mem with
    | error e => rw [hv] at h; cases h
    | ok v =>
      rw [hv] at h
      rcases List.mem_cons.1 hf with rfl | hf
      · rw [hv, preSaveAll_other h f.col fun g hg e => hn.1 (List.mem_map.2 ⟨g, hg, e⟩)]
        simp [Row.set]
      · rw [← preSaveAll_agg hn.2 hpk.2 h f hf hk]
        exact preSave_agg hk (by rw [Row.set, if_neg hpk.1])

/-- What is stored in a column that is not an aggregate's is a number, if callbacks return numbers and the plain attributes are stored as numbers. -/
theorem preSaveAll_stored_number (hτ : ∀ t c, (t, c) ∈ S → ∀ i, ∃ j, τ t c (.int i) = .int j) {m : Model} {add : Bool} : ∀ {fs : List SaveField} {mem mem' : Row}, (fs.map SaveField.col).Nodup →
    (∀ f ∈ fs, ∀ cb, f.kind = .callback cb → (m.table, f.col) ∈ S → ∀ db r, ∃ i, cb.value db r = .int i) →
    (∀ f ∈ fs, f.kind = .plain → (m.table, f.col) ∈ S → ∃ i, τ m.table f.col (mem f.col) = .int i) → preSaveAll A m db add fs mem = .ok mem' →
    ∀ f ∈ fs, f.kind ≠ .aggregate → (m.table, f.col) ∈ S → ∃ i, τ m.table f.col (mem' f.col) = .int i
  | [], _, _, _, _, _, _, _, hf, _, _ => by cases hf
  | g :: fs, mem, mem', hn, hc, hA, h, f, hf, ha, hS => by
    simp only [List.map_cons, List.nodup_cons] at hn
    simp only [preSaveAll] at h
    cases hv : g.preSave A m db add mem with
    | error e => rw [hv] at h; cases h
    | ok v =>
      rw [hv] at h
      rcases List.mem_cons.1 hf with rfl | hf
      · rw [preSaveAll_other h f.col fun g hg e => hn.1 (List.mem_map.2 ⟨g, hg, e⟩), Row.set, if_pos rfl]
        cases hk : f.kind with
        | plain =>
          simp only [SaveField.preSave, hk, Except.ok.injEq] at hv
          exact hv ▸ hA f (List.mem_cons_self ..) hk hS
        | callback cb =>
          simp only [SaveField.preSave, hk, Except.ok.injEq] at hv
          obtain ⟨i, hi⟩ := hc f (List.mem_cons_self ..) cb hk hS db mem
          rw [← hv, hi]
          exact hτ _ _ hS i
        | cacheKey =>
          simp only [SaveField.preSave, hk, Except.ok.injEq] at hv
          rw [← hv]
          exact hτ _ _ hS _
        | aggregate => exact absurd hk ha
      · refine preSaveAll_stored_number hτ hn.2 (fun f hf => hc f (List.mem_cons_of_mem _ hf)) (fun p hp hk hS => ?_) h f hf ha hS
        rw [Row.set, if_neg fun e => hn.1 (List.mem_map.2 ⟨p, hp, e⟩)]
        exact hA p (List.mem_cons_of_mem _ hp) hk hS

theorem preSaveAll_keepsPk (hP : om.Proper) {add : Bool} {fs : List SaveField} (hs : ∀ f ∈ fs, f ∈ om.saved) (h : preSaveAll A om.model db add fs mem = .ok mem') :
    mem' om.model.pk = mem om.model.pk := preSaveAll_other h _ fun f hf e => hP.pk (List.mem_map.2 ⟨f, hs f hf, e⟩)

/-- With the attributes as they are stored, `pre_save` of the model without callbacks changes nothing. -/
theorem preSaveAll_stored (hF : om.Fits τ) {add : Bool} {fs : List SaveField} (hs : ∀ f ∈ fs, f ∈ om.saved) (hn : (fs.map SaveField.col).Nodup) (h : preSaveAll A om.model db add fs mem = .ok mem') :
    preSaveAll A om.model db add (fs.map SaveField.asPlain) (τ.row om.model.table mem') = .ok (τ.row om.model.table mem') := by
  have hpk : om.model.pk ∉ fs.map SaveField.col := fun e => by
    obtain ⟨f, hf, e⟩ := List.mem_map.1 e
    exact hF.proper.pk (List.mem_map.2 ⟨f, hs f hf, e⟩)
  refine preSaveAll_asIs fun f hf hk => ?_
  rw [preSave_agg hk (mem' := mem) (by rw [ColumnTypes.row, hF.pk, preSaveAll_keepsPk hF.proper hs h]), preSaveAll_agg hn hpk h f hf hk, ColumnTypes.row, hF.aggregates f (hs f hf) hk]

/-- If the first `pre_save` found an aggregate's row, there is one. -/
theorem no_aggregate (hP : om.Proper) (ha : ¬ (db.rows om.model.table).any (isRowOf om.model (mem om.model.pk)) = true) (h : preSaveAll A om.model db false om.saved mem = .ok mem') :
    ∀ f ∈ om.saved, f.kind ≠ .aggregate := fun f hf hk => by
  have hv := preSaveAll_agg hP.cols hP.pk h f hf hk
  simp only [SaveField.preSave, hk, Bool.false_eq_true, if_false] at hv
  have : (db.rows om.model.table).find? (fun r => Val.sqlEq (r om.model.pk) (mem om.model.pk)) = none := List.find?_eq_none.2 fun r hr e => ha (List.any_eq_true.2 ⟨r, hr, e⟩)
  rw [this] at hv
  cases hv

variable (h2 : ∀ t c v, τ t c (τ t c v) = τ t c v) (hm : ∀ t c, Managed A.engine t c → ∀ v, τ t c v = v) (hdb : db.Stored τ)
include h2 hm hdb

theorem execTyped_sim {s s' : Stmt} (ht : s'.table = s.table) (ho : OpsSim τ s.table (s.ops db) (s'.ops db)) (h : A.execTyped τ s db = .ok db') : A.exec s' db = .ok db' ∧ db'.Stored τ := by
  have hx := exec_sim (E := A.engine) h2 hm ht ho hdb A.fuel
  unfold App.execTyped at h
  unfold App.exec
  cases he : A.engine.exec A.fuel s' db with
  | error e =>
    rw [he] at hx
    simp only [hx] at h
    cases h
  | ok d =>
    rw [he] at hx
    simp only [hx.1, Except.ok.injEq] at h
    subst h
    exact ⟨rfl, hx.2⟩

theorem insertTyped_sim {t : TableName} {rs : List Row} (h : A.execTyped τ (.insert t rs) db = .ok db') : A.exec (.insert t (rs.map (τ.row t))) db = .ok db' ∧ db'.Stored τ :=
  execTyped_sim h2 hm hdb (s := .insert t rs) (s' := .insert t (rs.map (τ.row t))) rfl (inss_sim rs) h

theorem updateTyped_sim (hk : ∀ v, τ om.model.table om.model.pk v = v) (h : A.execTyped τ (saveUpdate om mem) db = .ok db') :
    A.exec (saveUpdate om (τ.row om.model.table mem)) db = .ok db' ∧ db'.Stored τ :=
  execTyped_sim h2 hm hdb (s := saveUpdate om mem) (s' := saveUpdate om (τ.row om.model.table mem)) rfl (by
    unfold saveUpdate
    simp only [Stmt.ops, Stmt.table]
    rw [show τ.row om.model.table mem om.model.pk = mem om.model.pk from hk _]
    refine upds_sim (fun x r hr => ?_) _
    funext c
    simp only [ColumnTypes.row]
    by_cases hc : c ∈ om.saved.map SaveField.col
    · rw [if_pos hc, if_pos hc]
    · rw [if_neg hc, if_neg hc]
      exact (hr c).symm) h

/-- save() is save() of a model without callbacks, with the attributes as computed and stored. -/
theorem saveTyped_plain (hF : om.Fits τ) (h : A.saveTyped τ om mem db = .ok (db', mem')) :
    mem' om.model.pk = mem om.model.pk ∧ (∃ x, A.save om.asPlain (τ.row om.model.table mem') db = .ok (db', x)) ∧ db'.Stored τ := by
  unfold App.saveTyped at h
  cases h1 : preSaveAll A om.model db false om.saved mem with
  | error e => rw [h1] at h; cases h
  | ok mem1 =>
    rw [h1] at h
    simp only at h
    have hk1 := preSaveAll_keepsPk hF.proper (fun _ h => h) h1
    by_cases ha : (db.rows om.model.table).any (isRowOf om.model (mem om.model.pk)) = true
    · rw [if_pos ha] at h
      cases he : A.execTyped τ (saveUpdate om mem1) db with
      | error e => rw [he] at h; cases h
      | ok d =>
        rw [he] at h
        simp only [Except.ok.injEq, Prod.mk.injEq] at h
        obtain ⟨rfl, rfl⟩ := h
        obtain ⟨hx, hst⟩ := updateTyped_sim h2 hm hdb hF.pk he
        refine ⟨hk1, ⟨τ.row om.model.table mem1, ?_⟩, hst⟩
        have hpre : preSaveAll A om.asPlain.model db false om.asPlain.saved (τ.row om.model.table mem1) = .ok (τ.row om.model.table mem1) :=
          preSaveAll_stored hF (fun _ h => h) hF.proper.cols h1
        unfold App.save
        rw [hpre]
        simp only
        rw [if_pos (show (db.rows om.asPlain.model.table).any (isRowOf om.asPlain.model (τ.row om.model.table mem1 om.asPlain.model.pk)) = true by
          show (db.rows om.model.table).any (isRowOf om.model (τ om.model.table om.model.pk (mem1 om.model.pk))) = true
          rw [hF.pk, hk1]; exact ha), saveUpdate_asPlain, hx]
    · rw [if_neg ha] at h
      cases h3 : preSaveAll A om.model db true om.saved mem1 with
      | error e => rw [h3] at h; cases h
      | ok mem2 =>
        rw [h3] at h
        simp only at h
        have hk2 := preSaveAll_keepsPk hF.proper (fun _ h => h) h3
        cases he : A.execTyped τ (.insert om.model.table [mem2]) db with
        | error e => rw [he] at h; cases h
        | ok d =>
          rw [he] at h
          simp only [Except.ok.injEq, Prod.mk.injEq] at h
          obtain ⟨rfl, rfl⟩ := h
          obtain ⟨hx, hst⟩ := insertTyped_sim h2 hm hdb he
          refine ⟨hk2.trans hk1, ⟨τ.row om.model.table mem2, ?_⟩, hst⟩
          have hno := no_aggregate hF.proper ha h1
          have hpre : ∀ add, preSaveAll A om.asPlain.model db add om.asPlain.saved (τ.row om.model.table mem2) = .ok (τ.row om.model.table mem2) := fun add =>
            preSaveAll_asIs fun f hf hk => absurd hk (hno f hf)
          unfold App.save
          rw [hpre false]
          simp only
          rw [if_neg (show ¬ (db.rows om.asPlain.model.table).any (isRowOf om.asPlain.model (τ.row om.model.table mem2 om.asPlain.model.pk)) = true by
            show ¬ (db.rows om.model.table).any (isRowOf om.model (τ om.model.table om.model.pk (mem2 om.model.pk))) = true
            rw [hF.pk, hk2, hk1]; exact ha), hpre true]
          simp only
          rw [show om.asPlain.model = om.model from rfl, show [τ.row om.model.table mem2] = [mem2].map (τ.row om.model.table) from rfl, hx]

theorem createTyped_plain (hF : om.Fits τ) {k : Val} (h : A.createTyped τ om mem k db = .ok (db', mem')) :
    (∃ x, A.create om.asPlain (τ.row om.model.table mem') k db = .ok (db', x)) ∧ db'.Stored τ := by
  unfold App.createTyped at h
  cases h1 : preSaveAll A om.model db true om.saved mem with
  | error e => rw [h1] at h; cases h
  | ok mem1 =>
    rw [h1] at h
    simp only at h
    cases he : A.execTyped τ (.insert om.model.table [mem1.set om.model.pk k]) db with
    | error e => rw [he] at h; cases h
    | ok d =>
      rw [he] at h
      simp only [Except.ok.injEq, Prod.mk.injEq] at h
      obtain ⟨rfl, rfl⟩ := h
      obtain ⟨hx, hst⟩ := insertTyped_sim h2 hm hdb he
      refine ⟨⟨τ.row om.model.table (mem1.set om.model.pk k), ?_⟩, hst⟩
      have hpre : preSaveAll A om.asPlain.model db true om.asPlain.saved (τ.row om.model.table (mem1.set om.model.pk k)) = .ok (τ.row om.model.table (mem1.set om.model.pk k)) :=
        preSaveAll_asIs fun f hf hk => by
          have hv := preSaveAll_agg hF.proper.cols hF.proper.pk h1 f hf hk
          have hc : f.col ≠ om.model.pk := fun e => hF.proper.pk (List.mem_map.2 ⟨f, hf, e⟩)
          rw [show τ.row om.model.table (mem1.set om.model.pk k) f.col = mem1 f.col by rw [ColumnTypes.row, hF.aggregates f hf hk, Row.set, if_neg hc], ← hv]
          simp only [SaveField.preSave, hk, if_true]
      unfold App.create
      rw [hpre]
      simp only
      rw [show om.asPlain.model = om.model from rfl, Row.set_same (r := τ.row om.model.table (mem1.set om.model.pk k)) (show τ om.model.table om.model.pk (mem1.set om.model.pk k om.model.pk) = k by
        rw [hF.pk]; simp [Row.set]), show [τ.row om.model.table (mem1.set om.model.pk k)] = [mem1.set om.model.pk k].map (τ.row om.model.table) from rfl, hx]

theorem saveFieldsTyped_plain (hF : om.Fits τ) {cols : List Col} (h : A.saveFieldsTyped τ om cols mem db = .ok (db', mem')) :
    mem' om.model.pk = mem om.model.pk ∧ (∃ x, A.saveFields om.asPlain cols (τ.row om.model.table mem') db = .ok (db', x)) ∧ db'.Stored τ := by
  unfold App.saveFieldsTyped at h
  unfold App.saveFields
  rw [restrict_asPlain]
  by_cases hz : (om.restrict cols).saved = []
  · rw [if_pos hz] at h
    simp only [Except.ok.injEq, Prod.mk.injEq] at h
    obtain ⟨rfl, rfl⟩ := h
    rw [if_pos (by simp [OrmModel.asPlain, hz])]
    exact ⟨rfl, ⟨_, rfl⟩, hdb⟩
  · rw [if_neg hz] at h
    rw [if_neg (by simpa [OrmModel.asPlain] using hz)]
    cases h1 : preSaveAll A om.model db false (om.restrict cols).saved mem with
    | error e => rw [h1] at h; cases h
    | ok mem1 =>
      rw [h1] at h
      simp only at h
      have hsub : ∀ f ∈ (om.restrict cols).saved, f ∈ om.saved := fun f hf => (List.mem_filter.1 hf).1
      have hk1 : mem1 om.model.pk = mem om.model.pk := preSaveAll_keepsPk hF.proper hsub h1
      by_cases ha : (db.rows om.model.table).any (isRowOf om.model (mem om.model.pk)) = true
      · rw [if_pos ha] at h
        cases he : A.execTyped τ (saveUpdate (om.restrict cols) mem1) db with
        | error e => rw [he] at h; cases h
        | ok d =>
          rw [he] at h
          simp only [Except.ok.injEq, Prod.mk.injEq] at h
          obtain ⟨rfl, rfl⟩ := h
          obtain ⟨hx, hst⟩ := updateTyped_sim (om := om.restrict cols) h2 hm hdb hF.pk he
          have hpre : preSaveAll A om.model db false (om.restrict cols).asPlain.saved (τ.row om.model.table mem1) = .ok (τ.row om.model.table mem1) :=
            preSaveAll_stored hF hsub (restrict_proper hF.proper cols).cols h1
          refine ⟨hk1, ⟨τ.row om.model.table mem1, ?_⟩, hst⟩
          rw [show om.asPlain.model = om.model from rfl, hpre]
          simp only
          rw [if_pos (show (db.rows om.model.table).any (isRowOf om.model (τ.row om.model.table mem1 om.model.pk)) = true by
            rw [show τ.row om.model.table mem1 om.model.pk = mem om.model.pk from (hF.pk _).trans hk1]; exact ha), saveUpdate_asPlain]
          rw [show A.exec (saveUpdate (om.restrict cols) (τ.row om.model.table mem1)) db = .ok d from hx]
      · rw [if_neg ha] at h; cases h

end

section
variable {τ : ColumnTypes} {A : App} {om : OrmModel} {db db' : Db} {mem mem' : Row} {S : List (TableName × Col)}

/-- The rows of a `bulk_create`, as they are stored. -/
theorem preSaveObjs_plain (hF : om.Fits τ) : ∀ {objs : List (Row × Val)} {rs : List Row}, preSaveObjs A om db objs = .ok rs →
    ∃ objs', preSaveObjs A om.asPlain db objs' = .ok (rs.map (τ.row om.model.table)) ∧ objs'.map Prod.snd = objs.map Prod.snd ∧
      ((∀ t c, (t, c) ∈ S → ∀ i, ∃ j, τ t c (.int i) = .int j) → om.Numbers S → (∀ o ∈ objs, om.Attrs S (τ.row om.model.table o.1)) → ∀ o ∈ objs', om.asPlain.Attrs S o.1)
  | [], rs, h => by
    simp only [preSaveObjs, Except.ok.injEq] at h
    subst h
    exact ⟨[], rfl, rfl, fun _ _ _ o ho => by cases ho⟩
  | (mem, k) :: objs, rs, h => by
    simp only [preSaveObjs] at h
    cases h1 : preSaveAll A om.model db true om.saved mem with
    | error e => rw [h1] at h; cases h
    | ok mem1 =>
      rw [h1] at h
      simp only at h
      cases h3 : preSaveObjs A om db objs with
      | error e => rw [h3] at h; cases h
      | ok rs1 =>
        rw [h3] at h
        simp only [Except.ok.injEq] at h
        subst h
        obtain ⟨objs', h4, h5, h6⟩ := preSaveObjs_plain hF h3
        have hpre : preSaveAll A om.asPlain.model db true om.asPlain.saved (τ.row om.model.table mem1) = .ok (τ.row om.model.table mem1) := preSaveAll_stored hF (fun _ h => h) hF.proper.cols h1
        refine ⟨(τ.row om.model.table mem1, k) :: objs', ?_, by simp [h5], fun hτ hN hA o ho => ?_⟩
        · simp only [preSaveObjs, hpre, h4, List.map_cons, row_set, hF.pk]
          rfl
        · rcases List.mem_cons.1 ho with rfl | ho
          · exact asPlain_attrs (preSaveAll_stored_number hτ hF.proper.cols hN.callbacks (hA _ (List.mem_cons_self ..)) h1)
          · exact h6 hτ hN (fun o h => hA o (List.mem_cons_of_mem _ h)) o ho

theorem saveTyped_attrs (hτ : ∀ t c, (t, c) ∈ S → ∀ i, ∃ j, τ t c (.int i) = .int j) (hP : om.Proper) (hN : om.Numbers S) (hA : om.Attrs S (τ.row om.model.table mem))
    (h : A.saveTyped τ om mem db = .ok (db', mem')) : om.asPlain.Attrs S (τ.row om.model.table mem') := by
  unfold App.saveTyped at h
  cases h1 : preSaveAll A om.model db false om.saved mem with
  | error e => rw [h1] at h; cases h
  | ok mem1 =>
    rw [h1] at h
    simp only at h
    have n1 := preSaveAll_stored_number hτ hP.cols hN.callbacks hA h1
    by_cases ha : (db.rows om.model.table).any (isRowOf om.model (mem om.model.pk)) = true
    · rw [if_pos ha] at h
      cases he : A.execTyped τ (saveUpdate om mem1) db with
      | error e => rw [he] at h; cases h
      | ok d =>
        rw [he] at h
        simp only [Except.ok.injEq, Prod.mk.injEq] at h
        obtain ⟨rfl, rfl⟩ := h
        exact asPlain_attrs n1
    · rw [if_neg ha] at h
      cases h2 : preSaveAll A om.model db true om.saved mem1 with
      | error e => rw [h2] at h; cases h
      | ok mem2 =>
        rw [h2] at h
        simp only at h
        cases he : A.execTyped τ (.insert om.model.table [mem2]) db with
        | error e => rw [he] at h; cases h
        | ok d =>
          rw [he] at h
          simp only [Except.ok.injEq, Prod.mk.injEq] at h
          obtain ⟨rfl, rfl⟩ := h
          exact asPlain_attrs (preSaveAll_stored_number hτ hP.cols hN.callbacks (fun f hf hk hS => n1 f hf (by rw [hk]; exact Kind.noConfusion) hS) h2)

theorem createTyped_attrs (hτ : ∀ t c, (t, c) ∈ S → ∀ i, ∃ j, τ t c (.int i) = .int j) (hP : om.Proper) (hN : om.Numbers S) (hA : om.Attrs S (τ.row om.model.table mem)) {k : Val}
    (h : A.createTyped τ om mem k db = .ok (db', mem')) : om.asPlain.Attrs S (τ.row om.model.table mem') := by
  unfold App.createTyped at h
  cases h1 : preSaveAll A om.model db true om.saved mem with
  | error e => rw [h1] at h; cases h
  | ok mem1 =>
    rw [h1] at h
    simp only at h
    cases he : A.execTyped τ (.insert om.model.table [mem1.set om.model.pk k]) db with
    | error e => rw [he] at h; cases h
    | ok d =>
      rw [he] at h
      simp only [Except.ok.injEq, Prod.mk.injEq] at h
      obtain ⟨rfl, rfl⟩ := h
      refine asPlain_attrs fun f hf hk hS => ?_
      have hc : f.col ≠ om.model.pk := fun e => hP.pk (List.mem_map.2 ⟨f, hf, e⟩)
      rw [ColumnTypes.row, Row.set, if_neg hc]
      exact preSaveAll_stored_number hτ hP.cols hN.callbacks hA h1 f hf hk hS

theorem saveFieldsTyped_attrs (hτ : ∀ t c, (t, c) ∈ S → ∀ i, ∃ j, τ t c (.int i) = .int j) (hP : om.Proper) (hN : om.Numbers S) {cols : List Col}
    (hA : (om.restrict cols).Attrs S (τ.row om.model.table mem)) (h : A.saveFieldsTyped τ om cols mem db = .ok (db', mem')) : (om.asPlain.restrict cols).Attrs S (τ.row om.model.table mem') := by
  rw [restrict_asPlain]
  unfold App.saveFieldsTyped at h
  by_cases hz : (om.restrict cols).saved = []
  · intro f hf
    simp [OrmModel.asPlain, hz] at hf
  · rw [if_neg hz] at h
    cases h1 : preSaveAll A om.model db false (om.restrict cols).saved mem with
    | error e => rw [h1] at h; cases h
    | ok mem1 =>
      rw [h1] at h
      simp only at h
      by_cases ha : (db.rows om.model.table).any (isRowOf om.model (mem om.model.pk)) = true
      · rw [if_pos ha] at h
        cases he : A.execTyped τ (saveUpdate (om.restrict cols) mem1) db with
        | error e => rw [he] at h; cases h
        | ok d =>
          rw [he] at h
          simp only [Except.ok.injEq, Prod.mk.injEq] at h
          obtain ⟨rfl, rfl⟩ := h
          exact asPlain_attrs (om := om.restrict cols) (preSaveAll_stored_number hτ (restrict_proper hP cols).cols (fun f hf => hN.callbacks f (List.mem_filter.1 hf).1) hA h1)
      · rw [if_neg ha] at h; cases h

theorem typedErr_ok {α β : Type} {f : α → β} {x : Except TypedErr α} {b : β} (h : typedErr f x = .ok b) : ∃ a, x = .ok a ∧ f a = b := by
  cases x with
  | ok a => cases h; exact ⟨a, rfl, rfl⟩
  | error e => cases h

/-- A call is one of the calls of C62, of the project with the models without callbacks. -/
theorem callTyped_plain (h2 : ∀ t c v, τ t c (τ t c v) = τ t c v) (hm : ∀ t c, Managed A.engine t c → ∀ v, τ t c v = v) (hτ : ∀ t c, (t, c) ∈ S → ∀ i, ∃ j, τ t c (.int i) = .int j)
    (hdb : db.Stored τ) {c : OrmCall} (hF : c.Fits τ) (h : A.callTyped τ db c = .ok db') : db'.Stored τ ∧ ∃ c', A.call db c' = .ok db' ∧
      (∀ cb, LegalCall A cb db (c.stored τ) → LegalCall A.asPlain cb db c') ∧ (∀ a, CountCall A a db (c.stored τ) → CountCall A a db c') ∧ ∀ a, SumCall A a S db (c.stored τ) → SumCall A a S db c' := by
  have hin : ∀ {om : OrmModel}, om ∈ A.models → om.asPlain ∈ A.asPlain.models := fun h => List.mem_append_right _ (List.mem_map.2 ⟨_, h, rfl⟩)
  cases c with
  | save om mem =>
    obtain ⟨⟨d, mem'⟩, h1, rfl⟩ := typedErr_ok h
    obtain ⟨hk, ⟨x, hs⟩, hst⟩ := saveTyped_plain h2 hm hdb hF h1
    have hk' : τ.row om.model.table mem' om.model.pk = τ.row om.model.table mem om.model.pk := congrArg _ hk
    have hcnt : ∀ a, CountCall A a db ((OrmCall.save om mem).stored τ) → CountCall A a db (.save om.asPlain (τ.row om.model.table mem')) := fun a hL =>
      ⟨asPlain_proper hL.1, asPlain_holds hL.2.1, hL.2.2.1, fun e => hL.2.2.2 (hk'.symm.trans e)⟩
    refine ⟨hst, .save om.asPlain (τ.row om.model.table mem'), by simp [App.call, callErr, hs], fun cb hL => ⟨hin hL.1, fun hn => ?_⟩, hcnt, fun a hL =>
      ⟨hcnt a hL.1, asPlain_numbers hL.2.1, saveTyped_attrs hτ hF.proper hL.2.1 hL.2.2 h1⟩⟩
    have := hL.2 fun hi => hn ((inDatabase_key hk').2 hi)
    show NewKey A.engine cb db om (τ.row om.model.table mem' om.model.pk)
    rw [hk']
    exact this
  | saveFields om cols mem =>
    simp only [App.callTyped] at h
    cases hs : A.saveFieldsTyped τ om cols mem db with
    | error e => rw [hs] at h; cases h
    | ok x =>
      rw [hs] at h
      obtain ⟨d, mem'⟩ := x
      obtain ⟨hk, ⟨x, hs'⟩, hst⟩ := saveFieldsTyped_plain h2 hm hdb hF hs
      cases h
      have hk' : τ.row om.model.table mem' om.model.pk = τ.row om.model.table mem om.model.pk := congrArg _ hk
      have hcnt : ∀ a, CountCall A a db ((OrmCall.saveFields om cols mem).stored τ) → CountCall A a db (.saveFields om.asPlain cols (τ.row om.model.table mem')) := fun a hL =>
        ⟨asPlain_proper hL.1, asPlain_holds hL.2.1, hL.2.2.1, fun e => hL.2.2.2 (hk'.symm.trans e)⟩
      exact ⟨hst, .saveFields om.asPlain cols (τ.row om.model.table mem'), by simp [App.call, hs'], fun cb hL => hin hL, hcnt, fun a hL =>
        ⟨hcnt a hL.1, asPlain_numbers hL.2.1, saveFieldsTyped_attrs hτ hF.proper hL.2.1 hL.2.2 hs⟩⟩
  | create om mem k =>
    obtain ⟨⟨d, mem'⟩, h1, rfl⟩ := typedErr_ok h
    obtain ⟨⟨x, hs⟩, hst⟩ := createTyped_plain h2 hm hdb hF h1
    have hcnt : ∀ a, CountCall A a db ((OrmCall.create om mem k).stored τ) → CountCall A a db (.create om.asPlain (τ.row om.model.table mem') k) := fun a hL =>
      ⟨asPlain_proper hL.1, asPlain_holds hL.2.1, hL.2.2⟩
    exact ⟨hst, .create om.asPlain (τ.row om.model.table mem') k, by simp [App.call, callErr, hs], fun cb hL => hL, hcnt, fun a hL =>
      ⟨hcnt a hL.1, asPlain_numbers hL.2.1, createTyped_attrs hτ hF.proper hL.2.1 hL.2.2 h1⟩⟩
  | bulkCreate om objs =>
    obtain ⟨d, h1, rfl⟩ := typedErr_ok h
    unfold App.bulkCreateTyped at h1
    cases h3 : preSaveObjs A om db objs with
    | error e => rw [h3] at h1; cases h1
    | ok rs =>
      rw [h3] at h1
      obtain ⟨objs', h4, h5, h6⟩ := preSaveObjs_plain (τ := τ) (S := S) hF h3
      obtain ⟨hx, hst⟩ := insertTyped_sim h2 hm hdb h1
      have hsnd : ((objs.map fun o => (τ.row om.model.table o.1, o.2)).map Prod.snd) = objs'.map Prod.snd := by simp [h5, Function.comp_def]
      have hcnt : ∀ a, CountCall A a db ((OrmCall.bulkCreate om objs).stored τ) → CountCall A a db (.bulkCreate om.asPlain objs') := fun a hL =>
        ⟨asPlain_proper hL.1, asPlain_holds hL.2.1, fun ht => ⟨(hL.2.2 ht).1, fun k hk => (hL.2.2 ht).2 k (by rw [hsnd]; exact hk)⟩⟩
      refine ⟨hst, .bulkCreate om.asPlain objs', ?_, fun cb hL o ho => ?_, hcnt, fun a hL => ⟨hcnt a hL.1, asPlain_numbers hL.2.1, h6 hτ hL.2.1 fun o ho => ?_⟩⟩
      · simp only [App.call, App.bulkCreate, h4]
        rw [show om.asPlain.model = om.model from rfl, hx]
        rfl
      · have : o.2 ∈ (objs.map fun o => (τ.row om.model.table o.1, o.2)).map Prod.snd := by rw [hsnd]; exact List.mem_map.2 ⟨o, ho, rfl⟩
        obtain ⟨p, hp, e⟩ := List.mem_map.1 this
        rw [← e]
        exact hL p hp
      · exact hL.2.2 (τ.row om.model.table o.1, o.2) (List.mem_map.2 ⟨o, ho, rfl⟩)
  | load om mem =>
    obtain ⟨d, h1, rfl⟩ := typedErr_ok h
    have hgo : A.load om (τ.row om.model.table mem) db = .ok d ∧ d.Stored τ := by
      unfold App.loadTyped at h1
      unfold App.load
      rw [show τ.row om.model.table mem om.model.pk = mem om.model.pk from hF.pk _]
      by_cases ha : (db.rows om.model.table).any (isRowOf om.model (mem om.model.pk)) = true
      · rw [if_pos ha] at h1 ⊢
        exact updateTyped_sim h2 hm hdb hF.pk h1
      · rw [if_neg ha] at h1 ⊢
        exact insertTyped_sim h2 hm hdb h1
    exact ⟨hgo.2, .load om (τ.row om.model.table mem), by simp [App.call, callErr, hgo.1], fun cb hL => ⟨List.mem_append_left _ hL.1, hL.2⟩, fun a hL => hL, fun a hL => hL⟩
  | stmt s =>
    obtain ⟨d, h1, rfl⟩ := typedErr_ok h
    obtain ⟨hx, hst⟩ := execTyped_sim h2 hm hdb (typed_table s) (typed_sim s db) h1
    exact ⟨hst, .stmt (s.typed τ), by simp [App.call, callErr, hx], fun cb hL => hL, fun a hL => hL, fun a hL => hL⟩

end

end Denorm
