import Verif.Spec.Held
import Verif.Lemmas.Calls
import Verif.Lemmas.BulkUnsafe
import Verif.Lemmas.MultiTable
import Verif.Lemmas.Quiet
/-!
# Instances that hold related objects
-/
namespace Denorm

section
variable {A : App} {view : Callback → Db} {om : OrmModel} {cb : Callback} {db db' : Db} {mem mem' : Row} {a : AggDenorm}

theorem preSaveAllHeld_other {m : Model} {add : Bool} : ∀ {fs : List SaveField} {mem mem' : Row},
    preSaveAllHeld A view m db add fs mem = .ok mem' → ∀ c, (∀ f ∈ fs, f.col ≠ c) → mem' c = mem c
  | [], mem, mem', h, c, _ => by
    simp only [preSaveAllHeld, Except.ok.injEq] at h
    rw [h]
  | f :: fs, mem, mem', h, c, hc => by
    simp only [preSaveAllHeld] at h
    cases hv : f.preSaveHeld A view m db add mem with
    | error e => rw [hv] at h; cases h
    | ok v =>
      rw [hv] at h
      rw [preSaveAllHeld_other h c fun g hg => hc g (List.mem_cons_of_mem _ hg), Row.set, if_neg fun e => hc f (List.mem_cons_self ..) e.symm]

/-- Computed and random values are written like plain ones once they are there. -/
def SaveField.asPlain (f : SaveField) : SaveField := ⟨f.col, match f.kind with
  | .aggregate => .aggregate
  | _ => .plain⟩

def OrmModel.asPlain (om : OrmModel) : OrmModel := ⟨om.model, om.saved.map SaveField.asPlain⟩

theorem asPlain_cols : om.asPlain.saved.map SaveField.col = om.saved.map SaveField.col := by
  simp [OrmModel.asPlain, Function.comp_def, SaveField.asPlain]

/-- An aggregate's value depends on nothing but the key. -/
theorem preSave_agg {m : Model} {add : Bool} {f : SaveField} (hf : f.kind = .aggregate) {mem mem' : Row} (hk : mem m.pk = mem' m.pk) : f.preSave A m db add mem = f.preSave A m db add mem' := by
  simp only [SaveField.preSave, hf, hk]

/-- Saving the attributes that were computed, as plain values, computes them again. -/
theorem preSaveAll_asPlain {m : Model} {add : Bool} : ∀ {fs : List SaveField} {mem mem' : Row}, (fs.map SaveField.col).Nodup → m.pk ∉ fs.map SaveField.col →
    preSaveAllHeld A view m db add fs mem = .ok mem' → ∀ {x : Row}, x m.pk = mem m.pk → (∀ f ∈ fs, x f.col = mem' f.col) → preSaveAll A m db add (fs.map SaveField.asPlain) x = .ok x
  | [], _, _, _, _, _, _, _, _ => rfl
  | f :: fs, mem, mem', hn, hpk, h, x, hx, hall => by
    simp only [List.map_cons, List.nodup_cons] at hn
    simp only [List.map_cons, List.mem_cons, not_or] at hpk
    simp only [preSaveAllHeld] at h
    cases hv : f.preSaveHeld A view m db add mem with
    | error e => rw [hv] at h; cases h
    | ok v =>
      rw [hv] at h
      have hcol : mem' f.col = v := by
        rw [preSaveAllHeld_other h f.col fun g hg e => hn.1 (List.mem_map.2 ⟨g, hg, e⟩)]
        simp [Row.set]
      have hset : x.set f.col v = x := Row.set_same ((hall f (List.mem_cons_self ..)).trans hcol)
      have hp : f.asPlain.preSave A m db add x = .ok v := by
        cases hk : f.kind with
        | aggregate =>
          have he : f.asPlain = f := by cases f; simp only at hk; subst hk; rfl
          rw [he, preSave_agg hk hx]
          simpa [SaveField.preSaveHeld, hk] using hv
        | _ =>
          simp only [SaveField.preSave, SaveField.asPlain, hk]
          exact congrArg _ ((hall f (List.mem_cons_self ..)).trans hcol)
      simp only [List.map_cons, preSaveAll, hp]
      rw [show f.asPlain.col = f.col from rfl, hset]
      exact preSaveAll_asPlain hn.2 hpk.2 h (by rw [Row.set, if_neg hpk.1, hx]) fun g hg => hall g (List.mem_cons_of_mem _ hg)

theorem held_pk (hP : om.Proper) {add : Bool} {fs : List SaveField} (hs : ∀ f ∈ fs, f ∈ om.saved) (h : preSaveAllHeld A view om.model db add fs mem = .ok mem') :
    mem' om.model.pk = mem om.model.pk := preSaveAllHeld_other h _ fun f hf e => hP.pk (List.mem_map.2 ⟨f, hs f hf, e⟩)

theorem saveUpdate_asPlain : saveUpdate om.asPlain mem = saveUpdate om mem := by
  unfold saveUpdate
  rw [asPlain_cols]
  rfl

/-- save() with held objects is save() of a model without callbacks, with the attributes as computed. -/
theorem saveHeld_plain (hP : om.Proper) (h : A.saveHeld view om mem db = .ok (db', mem')) :
    mem' om.model.pk = mem om.model.pk ∧ A.save om.asPlain mem' db = .ok (db', mem') := by
  unfold App.saveHeld at h
  cases h1 : preSaveAllHeld A view om.model db false om.saved mem with
  | error e => rw [h1] at h; cases h
  | ok mem1 =>
    rw [h1] at h
    simp only at h
    have hk1 := held_pk hP (fun _ h => h) h1
    by_cases ha : (db.rows om.model.table).any (isRowOf om.model (mem om.model.pk)) = true
    · rw [if_pos ha] at h
      cases he : A.exec (saveUpdate om mem1) db with
      | error e => rw [he] at h; cases h
      | ok d =>
        rw [he] at h
        simp only [Except.ok.injEq, Prod.mk.injEq] at h
        obtain ⟨rfl, rfl⟩ := h
        refine ⟨hk1, ?_⟩
        have hpre : preSaveAll A om.asPlain.model db false om.asPlain.saved mem1 = .ok mem1 := preSaveAll_asPlain hP.cols hP.pk h1 hk1 fun _ _ => rfl
        unfold App.save
        rw [hpre]
        simp only
        rw [if_pos (show (db.rows om.asPlain.model.table).any (isRowOf om.asPlain.model (mem1 om.asPlain.model.pk)) = true by
          show (db.rows om.model.table).any (isRowOf om.model (mem1 om.model.pk)) = true
          rw [hk1]; exact ha), saveUpdate_asPlain, he]
    · rw [if_neg ha] at h
      cases h2 : preSaveAllHeld A view om.model db true om.saved mem1 with
      | error e => rw [h2] at h; cases h
      | ok mem2 =>
        rw [h2] at h
        simp only at h
        have hk2 := held_pk hP (fun _ h => h) h2
        cases he : A.exec (.insert om.model.table [mem2]) db with
        | error e => rw [he] at h; cases h
        | ok d =>
          rw [he] at h
          simp only [Except.ok.injEq, Prod.mk.injEq] at h
          obtain ⟨rfl, rfl⟩ := h
          refine ⟨hk2.trans hk1, ?_⟩
          -- without a row there is no aggregate, or the first `pre_save` would have raised
          have hno : ∀ fs : List SaveField, ∀ m m' : Row, m om.model.pk = mem om.model.pk → om.model.pk ∉ fs.map SaveField.col →
              preSaveAllHeld A view om.model db false fs m = .ok m' → ∀ f ∈ fs, f.kind ≠ .aggregate := by
            intro fs
            induction fs with
            | nil => intro _ _ _ _ _ f hf; cases hf
            | cons g fs ih =>
              intro m m' hm hg hh f hf hk
              simp only [preSaveAllHeld] at hh
              cases hv : g.preSaveHeld A view om.model db false m with
              | error e => rw [hv] at hh; cases hh
              | ok v =>
                rw [hv] at hh
                simp only [List.map_cons, List.mem_cons, not_or] at hg
                rcases List.mem_cons.1 hf with rfl | hf
                · simp only [SaveField.preSaveHeld, hk, SaveField.preSave, Bool.false_eq_true, if_false] at hv
                  have : (db.rows om.model.table).find? (fun r => Val.sqlEq (r om.model.pk) (m om.model.pk)) = none := by
                    refine List.find?_eq_none.2 fun r hr e => ha (List.any_eq_true.2 ⟨r, hr, ?_⟩)
                    rw [hm] at e
                    exact e
                  rw [this] at hv
                  cases hv
                · exact ih (m.set g.col v) m' (by rw [Row.set, if_neg hg.1, hm]) hg.2 hh f hf hk
          have hplain : ∀ add, preSaveAll A om.asPlain.model db add om.asPlain.saved mem2 = .ok mem2 := by
            intro add
            have hn := hno om.saved mem mem1 rfl hP.pk h1
            show preSaveAll A om.model db add (om.saved.map SaveField.asPlain) mem2 = .ok mem2
            generalize om.saved = fs at hn
            induction fs with
            | nil => rfl
            | cons g fs ih =>
              have hg := hn g (List.mem_cons_self ..)
              have hp : g.asPlain.preSave A om.model db add mem2 = .ok (mem2 g.col) := by
                cases hk : g.kind with
                | aggregate => exact absurd hk hg
                | _ => simp only [SaveField.preSave, SaveField.asPlain, hk]
              simp only [List.map_cons, preSaveAll, hp]
              rw [show g.asPlain.col = g.col from rfl, Row.set_same rfl]
              exact ih fun f hf => hn f (List.mem_cons_of_mem _ hf)
          unfold App.save
          rw [hplain false]
          simp only
          rw [if_neg (show ¬ (db.rows om.asPlain.model.table).any (isRowOf om.asPlain.model (mem2 om.asPlain.model.pk)) = true by
            show ¬ (db.rows om.model.table).any (isRowOf om.model (mem2 om.model.pk)) = true
            rw [hk2, hk1]; exact ha), hplain true]
          simp only
          rw [show om.asPlain.model = om.model from rfl, he]

theorem createHeld_plain (hP : om.Proper) {k : Val} (h : A.createHeld view om mem k db = .ok (db', mem')) : A.create om.asPlain mem' k db = .ok (db', mem') := by
  unfold App.createHeld at h
  cases h1 : preSaveAllHeld A view om.model db true om.saved mem with
  | error e => rw [h1] at h; cases h
  | ok mem1 =>
    rw [h1] at h
    simp only at h
    cases he : A.exec (.insert om.model.table [mem1.set om.model.pk k]) db with
    | error e => rw [he] at h; cases h
    | ok d =>
      rw [he] at h
      simp only [Except.ok.injEq, Prod.mk.injEq] at h
      obtain ⟨rfl, rfl⟩ := h
      have hpre : preSaveAll A om.asPlain.model db true om.asPlain.saved (mem1.set om.model.pk k) = .ok (mem1.set om.model.pk k) := by
        have hadd : ∀ fs : List SaveField, om.model.pk ∉ fs.map SaveField.col → (∀ f ∈ fs, f.kind = .aggregate → mem1 f.col = .int 0) →
            preSaveAll A om.model db true (fs.map SaveField.asPlain) (mem1.set om.model.pk k) = .ok (mem1.set om.model.pk k) := by
          intro fs
          induction fs with
          | nil => intros; rfl
          | cons g fs ih =>
            intro hg hz
            simp only [List.map_cons, List.mem_cons, not_or] at hg
            have hcol : (mem1.set om.model.pk k) g.col = mem1 g.col := by rw [Row.set, if_neg (Ne.symm hg.1)]
            have hp : g.asPlain.preSave A om.model db true (mem1.set om.model.pk k) = .ok ((mem1.set om.model.pk k) g.col) := by
              cases hk : g.kind with
              | aggregate => simp only [SaveField.preSave, SaveField.asPlain, hk, if_true, hcol, hz g (List.mem_cons_self ..) hk]
              | _ => simp only [SaveField.preSave, SaveField.asPlain, hk]
            simp only [List.map_cons, preSaveAll, hp]
            rw [show g.asPlain.col = g.col from rfl, Row.set_same rfl]
            exact ih hg.2 fun f hf => hz f (List.mem_cons_of_mem _ hf)
        refine hadd om.saved hP.pk ?_
        -- each aggregate was set to zero
        have hz : ∀ fs : List SaveField, (fs.map SaveField.col).Nodup → ∀ m m' : Row, preSaveAllHeld A view om.model db true fs m = .ok m' →
            ∀ f ∈ fs, f.kind = .aggregate → m' f.col = .int 0 := by
          intro fs
          induction fs with
          | nil => intro _ _ _ _ f hf; cases hf
          | cons g fs ih =>
            intro hnd m m' hh f hf hk
            simp only [List.map_cons, List.nodup_cons] at hnd
            simp only [preSaveAllHeld] at hh
            cases hv : g.preSaveHeld A view om.model db true m with
            | error e => rw [hv] at hh; cases hh
            | ok v =>
              rw [hv] at hh
              rcases List.mem_cons.1 hf with rfl | hf
              · rw [preSaveAllHeld_other hh f.col fun g hg e => hnd.1 (List.mem_map.2 ⟨g, hg, e⟩)]
                simp only [SaveField.preSaveHeld, hk, SaveField.preSave, if_true, Except.ok.injEq] at hv
                simp [Row.set, ← hv]
              · exact ih hnd.2 _ _ hh f hf hk
        exact hz om.saved hP.cols mem mem1 h1
      unfold App.create
      rw [hpre]
      simp only
      rw [show om.asPlain.model = om.model from rfl, Row.set_same (show (mem1.set om.model.pk k) om.model.pk = k by simp [Row.set]), he]

theorem restrict_asPlain (cols : List Col) : om.asPlain.restrict cols = (om.restrict cols).asPlain := by
  simp only [OrmModel.restrict, OrmModel.asPlain, OrmModel.mk.injEq, true_and]
  rw [List.filter_map]
  rfl

theorem saveFieldsHeld_plain (hP : om.Proper) {cols : List Col} (h : A.saveFieldsHeld view om cols mem db = .ok (db', mem')) :
    mem' om.model.pk = mem om.model.pk ∧ A.saveFields om.asPlain cols mem' db = .ok (db', mem') := by
  unfold App.saveFieldsHeld at h
  unfold App.saveFields
  rw [restrict_asPlain]
  by_cases hz : (om.restrict cols).saved = []
  · rw [if_pos hz] at h
    simp only [Except.ok.injEq, Prod.mk.injEq] at h
    obtain ⟨rfl, rfl⟩ := h
    rw [if_pos (by simp [OrmModel.asPlain, hz])]
    exact ⟨rfl, rfl⟩
  · rw [if_neg hz] at h
    rw [if_neg (by simpa [OrmModel.asPlain] using hz)]
    cases h1 : preSaveAllHeld A view om.model db false (om.restrict cols).saved mem with
    | error e => rw [h1] at h; cases h
    | ok mem1 =>
      rw [h1] at h
      simp only at h
      have hk1 : mem1 om.model.pk = mem om.model.pk := held_pk hP (fun f hf => (List.mem_filter.1 hf).1) h1
      by_cases ha : (db.rows om.model.table).any (isRowOf om.model (mem om.model.pk)) = true
      · rw [if_pos ha] at h
        cases he : A.exec (saveUpdate (om.restrict cols) mem1) db with
        | error e => rw [he] at h; cases h
        | ok d =>
          rw [he] at h
          simp only [Except.ok.injEq, Prod.mk.injEq] at h
          obtain ⟨rfl, rfl⟩ := h
          have hR := restrict_proper hP cols
          have hpre : preSaveAll A om.model db false (om.restrict cols).asPlain.saved mem1 = .ok mem1 := preSaveAll_asPlain hR.cols hR.pk h1 hk1 fun _ _ => rfl
          refine ⟨hk1, ?_⟩
          rw [show om.asPlain.model = om.model from rfl, hpre]
          simp only
          rw [if_pos (show (db.rows om.model.table).any (isRowOf om.model (mem1 om.model.pk)) = true by rw [hk1]; exact ha), saveUpdate_asPlain, he]
      · rw [if_neg ha] at h; cases h

/-- The project with the models without callbacks. -/
def App.asPlain (A : App) : App := { A with models := A.models ++ A.models.map OrmModel.asPlain }

theorem preSaveAll_models {m : Model} {add : Bool} {ms : List OrmModel} : ∀ (fs : List SaveField) (mem : Row), preSaveAll { A with models := ms } m db add fs mem = preSaveAll A m db add fs mem
  | [], _ => rfl
  | f :: fs, mem => by
    have : f.preSave { A with models := ms } m db add mem = f.preSave A m db add mem := rfl
    simp only [preSaveAll, this]
    cases f.preSave A m db add mem with
    | error e => rfl
    | ok v => exact preSaveAll_models fs _

theorem call_models {ms : List OrmModel} (c : OrmCall) : App.call { A with models := ms } db c = A.call db c := by
  have hb : ∀ (om : OrmModel) (objs : List (Row × Val)), preSaveObjs { A with models := ms } om db objs = preSaveObjs A om db objs := by
    intro om objs
    induction objs with
    | nil => rfl
    | cons o objs ih =>
      obtain ⟨mem, k⟩ := o
      simp only [preSaveObjs, preSaveAll_models, ih]
  cases c with
  | save om mem => simp only [App.call, App.save, preSaveAll_models, App.exec]
  | saveFields om cols mem => simp only [App.call, App.saveFields, preSaveAll_models, App.exec]
  | create om mem k => simp only [App.call, App.create, preSaveAll_models, App.exec]
  | bulkCreate om objs => simp only [App.call, App.bulkCreate, hb, App.exec]
  | load om mem => simp only [App.call, App.load, App.exec]
  | stmt s => simp only [App.call, App.exec]

/-- What the call of an instance that holds related objects is, among the calls of one that does not. -/
def HeldCall.plain (mem' : Row) : HeldCall → OrmCall
  | .save _ om _ => .save om.asPlain mem'
  | .saveFields _ om cols _ => .saveFields om.asPlain cols mem'
  | .create _ om _ k => .create om.asPlain mem' k
  | .call c => c

/-- The key that the call names. -/
def HeldCall.SameKey (mem' : Row) : HeldCall → Prop
  | .save _ om mem => mem' om.model.pk = mem om.model.pk
  | .saveFields _ om _ mem => mem' om.model.pk = mem om.model.pk
  | _ => True

theorem heldCall_plain {c : HeldCall} (hP : c.Proper) (h : A.heldCall db c = .ok db') : ∃ mem', c.SameKey mem' ∧ A.call db (c.plain mem') = .ok db' := by
  cases c with
  | save view om mem =>
    obtain ⟨⟨d, mem'⟩, h1, rfl⟩ := callErr_ok h
    obtain ⟨hk, hs⟩ := saveHeld_plain hP h1
    exact ⟨mem', hk, by simp [HeldCall.plain, App.call, callErr, hs]⟩
  | saveFields view om cols mem =>
    simp only [App.heldCall] at h
    cases hs : A.saveFieldsHeld view om cols mem db with
    | error e => rw [hs] at h; cases h
    | ok x =>
      rw [hs] at h
      obtain ⟨d, mem'⟩ := x
      obtain ⟨hk, hs'⟩ := saveFieldsHeld_plain hP hs
      cases h
      exact ⟨mem', hk, by simp [HeldCall.plain, App.call, hs']⟩
  | create view om mem k =>
    obtain ⟨⟨d, mem'⟩, h1, rfl⟩ := callErr_ok h
    have hs := createHeld_plain hP h1
    exact ⟨mem', trivial, by simp [HeldCall.plain, App.call, callErr, hs]⟩
  | call c => exact ⟨fun _ => .null, trivial, h⟩

theorem asPlain_proper (hP : om.Proper) : om.asPlain.Proper := ⟨by rw [OrmModel.cols, asPlain_cols]; exact hP.cols, by rw [OrmModel.cols, asPlain_cols]; exact hP.pk⟩

theorem asPlain_holds (h : om.Holds a) : om.asPlain.Holds a := by
  intro ht
  obtain ⟨h1, f, hf, h2, h3⟩ := h ht
  refine ⟨h1, f.asPlain, List.mem_map.2 ⟨f, hf, rfl⟩, h2, ?_⟩
  cases hk : f.kind with
  | aggregate => simp [SaveField.asPlain, hk, Kind.isAggregate]
  | _ => rw [hk] at h3; simp [Kind.isAggregate] at h3

theorem inDatabase_key {mem mem' : Row} (h : mem' om.model.pk = mem om.model.pk) : InDatabase om.asPlain mem' db ↔ InDatabase om mem db := by
  show (∃ r ∈ db.rows om.model.table, r om.model.pk = mem' om.model.pk ∧ mem' om.model.pk ≠ .null) ↔ _
  rw [h]
  rfl

/-- The call is one of the calls of C62, of the project with the models without callbacks. -/
theorem heldCall_legal {c : HeldCall} (hP : c.Proper) (hL : LegalCall A cb db c.bare) (h : A.heldCall db c = .ok db') : ∃ c', LegalCall A.asPlain cb db c' ∧ A.asPlain.call db c' = .ok db' := by
  obtain ⟨mem', hk, hc⟩ := heldCall_plain hP h
  refine ⟨c.plain mem', ?_, by rw [App.asPlain, call_models]; exact hc⟩
  have hin : ∀ {om : OrmModel}, om ∈ A.models → om.asPlain ∈ A.asPlain.models := fun h => List.mem_append_right _ (List.mem_map.2 ⟨_, h, rfl⟩)
  cases c with
  | save view om mem =>
    refine ⟨hin hL.1, fun hn => ?_⟩
    have := hL.2 fun hi => hn ((inDatabase_key hk).2 hi)
    show NewKey A.engine cb db om (mem' om.model.pk)
    rw [show mem' om.model.pk = mem om.model.pk from hk]
    exact this
  | saveFields view om cols mem => exact hin hL
  | create view om mem k => exact hL
  | call c =>
    cases c with
    | save om mem => exact ⟨List.mem_append_left _ hL.1, hL.2⟩
    | saveFields om cols mem => exact List.mem_append_left _ hL
    | create om mem k => exact hL
    | bulkCreate om objs => exact hL
    | load om mem => exact ⟨List.mem_append_left _ hL.1, hL.2⟩
    | stmt s => exact hL

theorem heldCall_count {c : HeldCall} (hP : c.Proper) (hL : CountCall A a db c.bare) (h : A.heldCall db c = .ok db') : ∃ c', CountCall A a db c' ∧ A.call db c' = .ok db' := by
  obtain ⟨mem', hk, hc⟩ := heldCall_plain hP h
  refine ⟨c.plain mem', ?_, hc⟩
  cases c with
  | save view om mem => exact ⟨asPlain_proper hL.1, asPlain_holds hL.2.1, hL.2.2.1, fun e => hL.2.2.2 (hk.symm.trans e)⟩
  | saveFields view om cols mem => exact ⟨asPlain_proper hL.1, asPlain_holds hL.2.1, hL.2.2.1, fun e => hL.2.2.2 (hk.symm.trans e)⟩
  | create view om mem k => exact ⟨asPlain_proper hL.1, asPlain_holds hL.2.1, hL.2.2⟩
  | call c => exact hL

/-- If what the instances hold is what the database contains, nothing is different. -/
theorem preSaveAllHeld_same (hv : ∀ cb, view cb = db) {m : Model} {add : Bool} : ∀ (fs : List SaveField) (mem : Row), preSaveAllHeld A view m db add fs mem = preSaveAll A m db add fs mem
  | [], _ => rfl
  | f :: fs, mem => by
    have : f.preSaveHeld A view m db add mem = f.preSave A m db add mem := by
      cases hk : f.kind <;> simp only [SaveField.preSaveHeld, SaveField.preSave, hk, hv]
    simp only [preSaveAllHeld, preSaveAll, this]
    cases f.preSave A m db add mem with
    | error e => rfl
    | ok v => exact preSaveAllHeld_same hv fs _

theorem preSaveAllHeld_append {m : Model} {add : Bool} {post : List SaveField} : ∀ {pre : List SaveField} {mem mem' : Row},
    preSaveAllHeld A view m db add (pre ++ post) mem = .ok mem' → ∃ mid, preSaveAllHeld A view m db add pre mem = .ok mid ∧ preSaveAllHeld A view m db add post mid = .ok mem'
  | [], mem, _, h => ⟨mem, rfl, h⟩
  | f :: pre, mem, mem', h => by
    simp only [List.cons_append, preSaveAllHeld] at h ⊢
    cases hv : f.preSaveHeld A view m db add mem with
    | error e => rw [hv] at h; cases h
    | ok v => rw [hv] at h; exact preSaveAllHeld_append h

theorem preSaveAllHeld_keep {m : Model} {add : Bool} {c : Col} : ∀ {fs : List SaveField} {mem mem' : Row}, preSaveAllHeld A view m db add fs mem = .ok mem' →
    (∀ f ∈ fs, f.col = c → f.kind = .plain) → mem' c = mem c
  | [], mem, mem', h, _ => by
    simp only [preSaveAllHeld, Except.ok.injEq] at h
    rw [h]
  | f :: fs, mem, mem', h, hc => by
    simp only [preSaveAllHeld] at h
    cases hv : f.preSaveHeld A view m db add mem with
    | error e => rw [hv] at h; cases h
    | ok v =>
      rw [hv] at h
      rw [preSaveAllHeld_keep h fun g hg => hc g (List.mem_cons_of_mem _ hg), Row.set]
      by_cases e : c = f.col
      · rw [if_pos e]
        have hk := hc f (List.mem_cons_self ..) e.symm
        simp only [SaveField.preSaveHeld, hk, SaveField.preSave, Except.ok.injEq] at hv
        rw [e, hv]
      · rw [if_neg e]

/-- What `pre_save` computes is right for what the instance holds. -/
theorem Computes.held (h : Computes om cb) (this : ∀ d ∈ cb.deps, d.dep.this = cb.model) (oneWay : ∀ d ∈ cb.deps, ∀ g, d.dep.rel ≠ .backwardM2M (.generic g)) {add : Bool}
    (hp : preSaveAllHeld A view om.model db add om.saved mem = .ok mem') : mem' cb.field = cb.value (view cb) mem' := by
  obtain ⟨pre, post, hsp, hord⟩ := h.order
  have hnd : (pre.map SaveField.col ++ cb.field :: post.map SaveField.col).Nodup := by
    have := h.cols
    rw [OrmModel.cols, hsp] at this
    simpa using this
  have hpost : ∀ f ∈ post, f.col ≠ cb.field := by
    intro f hf e
    have := (List.nodup_append.1 hnd).2.1
    exact (List.nodup_cons.1 this).1 (e ▸ List.mem_map.2 ⟨f, hf, rfl⟩)
  have hnpk : ∀ f ∈ om.saved, f.col ≠ om.model.pk := fun f hf e => h.pk (List.mem_map.2 ⟨f, hf, e⟩)
  rw [hsp] at hp hnpk
  obtain ⟨rc, hp1, hp2⟩ := preSaveAllHeld_append hp
  simp only [preSaveAllHeld, SaveField.preSaveHeld] at hp2
  have hfield : mem' cb.field = cb.value (view cb) rc := by
    rw [preSaveAllHeld_other hp2 cb.field hpost]
    simp [Row.set]
  rw [hfield]
  refine value_own this oneWay ?_ fun c hc => ?_
  · rw [← h.model, preSaveAllHeld_other hp2 _ fun f hf => hnpk f (List.mem_append_right _ (List.mem_cons_of_mem _ hf))]
    have := hnpk ⟨cb.field, .callback cb⟩ (List.mem_append_right _ (List.mem_cons_self ..))
    simp only at this
    simp [Row.set, Ne.symm this]
  · obtain ⟨h1, h2⟩ := hord c hc
    rw [preSaveAllHeld_keep hp2 h2]
    simp [Row.set, h1]

end
end Denorm
