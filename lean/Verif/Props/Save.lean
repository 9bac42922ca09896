import Verif.Lemmas.SaveStored
import Verif.Props.Aggregates
import Verif.Props.CacheKey
import Verif.DemoApp
/-!
# save(): C13, C16, C46
-/
namespace Denorm
section
variable {A : App} {om : OrmModel} {db db1 db' : Db} {mem mem' r r1 : Row} {f : SaveField}

/-! ## C13: aggregates -/

/-- Without other sessions in between, this is `save()`. -/
theorem saveBetween_same : A.saveBetween om mem db db = A.save om mem db := rfl

/-- **C13, partial.** `save()` of an instance with arbitrary attribute values `mem` while other sessions work: `db` is the database when
the fields' values are determined, `db1` the database when the UPDATE is executed. If the instance's aggregates were not changed in
between, the save has exactly the effect of an UPDATE that does not mention them, and the attributes are set to the stored values.
Missing: changes of the instance's aggregates between the two moments; they are lost (`C13_violated_race`). -/
theorem C13_between_partial (hP : om.Proper) (hu : om.Unique db) (hu1 : om.Unique db1) (hn : mem om.model.pk ≠ .null)
    (hr : r ∈ db.rows om.model.table) (hk : r om.model.pk = mem om.model.pk)
    (hr1 : r1 ∈ db1.rows om.model.table) (hk1 : r1 om.model.pk = mem om.model.pk)
    (hsame : ∀ f ∈ om.saved, f.kind.isAggregate = true → r1 f.col = r f.col)
    (h : A.saveBetween om mem db db1 = .ok (db', mem')) :
    (∀ f ∈ om.saved, f.kind.isAggregate = true → mem' f.col = r1 f.col) ∧
    A.engine.exec A.fuel (updateOnly om.model (mem om.model.pk) om.otherCols mem') db1 = .ok db' := by
  obtain ⟨hp, he⟩ := saveBetween_existing ⟨r1, hr1, hk1⟩ hn h
  have hagg : ∀ f ∈ om.saved, f.kind.isAggregate = true → mem' f.col = r1 f.col := fun f hf ha =>
    (preSaveAll_aggregate hP hu hr hk hn hp hf ha).trans (hsame f hf ha).symm
  have hpk := preSaveAll_pk hP hp
  refine ⟨hagg, ?_⟩
  rw [← he, ← hpk]
  exact (saveUpdate_eq_only hu1 hr1 (hk1.trans hpk.symm) (hpk ▸ hn) hagg _).symm

/-- **C13** for a save that no other session interrupts: whatever the attributes say, however long ago the instance was loaded, the
stored aggregates are left as they are and the attributes are set to them. -/
theorem C13_save (hP : om.Proper) (hu : om.Unique db) (hn : mem om.model.pk ≠ .null) (hr : r ∈ db.rows om.model.table)
    (hk : r om.model.pk = mem om.model.pk) (h : A.save om mem db = .ok (db', mem')) :
    (∀ f ∈ om.saved, f.kind.isAggregate = true → mem' f.col = r f.col) ∧
    A.engine.exec A.fuel (updateOnly om.model (mem om.model.pk) om.otherCols mem') db = .ok db' :=
  C13_between_partial hP hu hu hn hr hk hr hk (fun _ _ _ => rfl) (saveBetween_same ▸ h)

theorem updateOnly_legal {a : AggDenorm} {k : Val} (hP : om.Proper) (hH : om.Holds a) :
    CountLegal a db (updateOnly om.model k om.otherCols mem) := by
  intro ht x r
  obtain ⟨h1, f, hf, h2, h3⟩ := hH ht
  have hpk : a.model.pk ∉ om.otherCols := by
    rw [← h1]
    intro h
    obtain ⟨g, hg, e, _⟩ := mem_otherCols.1 h
    exact hP.pk (List.mem_map.2 ⟨g, hg, e⟩)
  have hfn : a.fieldname ∉ om.otherCols := by
    rw [← h2]
    intro h
    obtain ⟨g, hg, e, hb⟩ := mem_otherCols.1 h
    have : g = f := by
      have hn := hP.cols
      simp only [OrmModel.cols] at hn
      obtain ⟨i, hi, rfl⟩ := List.mem_iff_getElem.1 hg
      obtain ⟨j, hj, rfl⟩ := List.mem_iff_getElem.1 hf
      have := (List.getElem_inj (h₀ := by simpa using hi) (h₁ := by simpa using hj) hn).1 (by simpa using e)
      subst this; rfl
    rw [this, h3] at hb
    simp at hb
  simp [hpk, hfn]

/-- In consequence, save() of an existing instance of any model, with any attribute values, keeps every CountField right. -/
theorem C13_count_right {D : List Denorm} {a : AggDenorm} (hE : Installed A.engine D) (hD : AggDeclared A.engine.backend D a)
    (hN : NoReentry A.engine) (hc : a.agg = .count) (hP : om.Proper) (hH : om.Holds a) (hu : om.Unique db)
    (hn : mem om.model.pk ≠ .null) (hr : r ∈ db.rows om.model.table) (hk : r om.model.pk = mem om.model.pk)
    (h : A.save om mem db = .ok (db', mem')) (hok : AggOk a db) : AggOk a db' := by
  have he := (C13_save hP hu hn hr hk h).2
  exact (agg_exec hE hD hN (count_closed hD hc) (by simp) (countLegal_agg (updateOnly_legal hP hH)) (aggOk_ints hok) hok he).1

/-- The same for SumFields: save() of an existing instance of any model, with any attribute values that are numbers where numbers are summed
(`S`, as in C12), keeps every SumField right. -/
theorem C13_sum_right {D : List Denorm} {a : AggDenorm} {S : List (TableName × Col)} (hE : Installed A.engine D)
    (hD : AggDeclared A.engine.backend D a) (hN : NoReentry A.engine) (hS : IntClosed A.engine.backend D S) (hm : (a.model.table, a.fieldname) ∈ S)
    (hP : om.Proper) (hH : om.Holds a) (hu : om.Unique db) (hn : mem om.model.pk ≠ .null) (hr : r ∈ db.rows om.model.table)
    (hk : r om.model.pk = mem om.model.pk) (h : A.save om mem db = .ok (db', mem'))
    (hw : ∀ c ∈ om.otherCols, (om.model.table, c) ∈ S → ∃ i, mem' c = .int i) (hI : ∀ t, ∀ r ∈ db.rows t, IntRow S t r) (hok : AggOk a db) :
    AggOk a db' ∧ ∀ t, ∀ r ∈ db'.rows t, IntRow S t r := by
  have he := (C13_save hP hu hn hr hk h).2
  refine agg_exec (s := updateOnly om.model (mem om.model.pk) om.otherCols mem') hE hD hN hS hm
    ⟨fun x r hr c hc => ?_, updateOnly_legal (db := db) (k := mem om.model.pk) hP hH⟩ hI hok he
  show ∃ i, (if c ∈ om.otherCols then mem' c else r c) = .int i
  split
  · rename_i ho
    exact hw c ho hc
  · exact hr c hc

/-- A new instance starts with zero in its aggregates, in memory and in the INSERT. -/
theorem C13_create_zero {k : Val} (hP : om.Proper) (h : A.create om mem k db = .ok (db', mem')) :
    (∀ f ∈ om.saved, f.kind.isAggregate = true → mem' f.col = .int 0) ∧
    A.engine.exec A.fuel (.insert om.model.table [mem']) db = .ok db' := by
  simp only [App.create] at h
  cases hp : preSaveAll A om.model db true om.saved mem with
  | error e => rw [hp] at h; simp at h
  | ok mem1 =>
    rw [hp] at h
    simp only at h
    cases he : A.exec (.insert om.model.table [mem1.set om.model.pk k]) db with
    | error e => rw [he] at h; simp at h
    | ok x =>
      rw [he] at h
      simp only [Except.ok.injEq, Prod.mk.injEq] at h
      obtain ⟨rfl, rfl⟩ := h
      refine ⟨fun f hf ha => ?_, exec_ok he⟩
      obtain ⟨mid, _, h2⟩ := preSaveAll_at hp hP.cols hP.pk f hf
      have hne : f.col ≠ om.model.pk := fun e => hP.pk (List.mem_map.2 ⟨f, hf, e⟩)
      simp only [Row.set, hne, if_false]
      cases hkind : f.kind with
      | aggregate =>
        simp only [SaveField.preSave, hkind, if_true, Except.ok.injEq] at h2
        exact h2.symm
      | _ => rw [hkind] at ha; simp [Kind.isAggregate] at ha

/-! ## C46: instances with a key chosen by the program -/

/-- **C46, partial.** Saving never raises IndexError if the instance exists or its model has no aggregates. Missing: new instances with
an explicit primary key of models that have a CountField or SumField (`C46_violated_explicit_key`). -/
theorem C46_no_index_error_partial (hP : om.Proper) (hn : mem om.model.pk ≠ .null)
    (hx : (∃ r ∈ db.rows om.model.table, r om.model.pk = mem om.model.pk) ∨ ∀ f ∈ om.saved, f.kind.isAggregate = false) :
    A.save om mem db ≠ .error .indexError := by
  have key : ∀ (add : Bool) (mem : Row), mem om.model.pk ≠ .null →
      ((∃ r ∈ db.rows om.model.table, r om.model.pk = mem om.model.pk) ∨ ∀ f ∈ om.saved, f.kind.isAggregate = false) →
      ∃ mem', preSaveAll A om.model db add om.saved mem = .ok mem' := by
    intro add mem hn hx
    have : ∀ (fs : List SaveField) (mem : Row), mem om.model.pk ≠ .null → om.model.pk ∉ fs.map SaveField.col →
        ((∃ r ∈ db.rows om.model.table, r om.model.pk = mem om.model.pk) ∨ ∀ f ∈ fs, f.kind.isAggregate = false) →
        ∃ mem', preSaveAll A om.model db add fs mem = .ok mem' := by
      intro fs
      induction fs with
      | nil => intro mem _ _ _; exact ⟨mem, rfl⟩
      | cons f fs ih =>
        intro mem hn hk hx
        simp only [List.map_cons, List.mem_cons, not_or] at hk
        have hv : ∃ v, f.preSave A om.model db add mem = .ok v := by
          simp only [SaveField.preSave]
          cases hkind : f.kind with
          | plain => exact ⟨_, rfl⟩
          | callback cb => exact ⟨_, rfl⟩
          | cacheKey => exact ⟨_, rfl⟩
          | aggregate =>
            rcases hx with ⟨r, hr, hrk⟩ | hx
            · simp only
              split
              · exact ⟨_, rfl⟩
              · split
                · exact ⟨_, rfl⟩
                · next hf => exact absurd (Val.sqlEq_iff.2 ⟨hrk, hrk ▸ hn⟩) (List.find?_eq_none.1 hf r hr)
            · have := hx f (List.mem_cons_self ..)
              rw [hkind] at this; simp [Kind.isAggregate] at this
        obtain ⟨v, hv⟩ := hv
        simp only [preSaveAll, hv]
        have hpk : (mem.set f.col v) om.model.pk = mem om.model.pk := by simp [Row.set, hk.1]
        refine ih _ (hpk ▸ hn) hk.2 (hx.imp (fun h => hpk ▸ h) fun h f hf => h f (List.mem_cons_of_mem _ hf))
    exact this om.saved mem hn hP.pk hx
  intro h
  simp only [App.save] at h
  obtain ⟨mem1, h1⟩ := key false mem hn hx
  rw [h1] at h
  simp only at h
  have hpk := preSaveAll_pk hP h1
  have hexec : ∀ s, A.exec s db ≠ .error .indexError := by
    intro s hs
    simp only [App.exec] at hs
    cases he : A.engine.exec A.fuel s db <;> rw [he] at hs <;> simp at hs
  split at h
  · cases he : A.exec (saveUpdate om mem1) db with
    | ok x => rw [he] at h; simp at h
    | error e => rw [he] at h; simp only [Except.error.injEq] at h; exact hexec _ (h ▸ he)
  · obtain ⟨mem2, h2⟩ := key true mem1 (hpk ▸ hn) (hpk ▸ hx)
    rw [h2] at h
    simp only at h
    cases he : A.exec (.insert om.model.table [mem2]) db with
    | ok x => rw [he] at h; simp at h
    | error e => rw [he] at h; simp only [Except.error.injEq] at h; exact hexec _ (h ▸ he)

/-! ## C16: cache keys -/

theorem preSave_cacheKey {add : Bool} (hP : om.Proper) (h : preSaveAll A om.model db add om.saved mem = .ok mem') (hf : f ∈ om.saved)
    (hk : f.kind.isCacheKey = true) : ∃ inst : Row, inst om.model.pk = mem om.model.pk ∧ mem' f.col = .int (A.pyRand db inst f.col) := by
  obtain ⟨mid, h1, h2⟩ := preSaveAll_at h hP.cols hP.pk f hf
  cases hkind : f.kind with
  | cacheKey =>
    simp only [SaveField.preSave, hkind, Except.ok.injEq] at h2
    exact ⟨mid, h1, h2.symm⟩
  | _ => rw [hkind] at hk; simp [Kind.isCacheKey] at hk

/-- **C16, partial.** Every save() of an instance, new or not, with whatever attribute values, sets the CacheKeyField's attribute to a
number drawn during this save (`pyRand` is asked about the database and the instance at that moment), and the database then holds the
same value. Missing: fields that the triggers fired by the save itself renew again (`C16_violated_own_trigger`). -/
theorem C16_save_partial (hP : om.Proper) (hu : om.Unique db) (hn : mem om.model.pk ≠ .null) (hf : f ∈ om.saved)
    (hk : f.kind.isCacheKey = true) (hs : SaveSafe A.engine om f.col) (hpk : SaveSafe A.engine om om.model.pk)
    (h : A.save om mem db = .ok (db', mem')) :
    (∃ inst : Row, inst om.model.pk = mem om.model.pk ∧ mem' f.col = .int (A.pyRand db inst f.col)) ∧
    (∃ r ∈ db'.rows om.model.table, r om.model.pk = mem om.model.pk) ∧
    ∀ r ∈ db'.rows om.model.table, r om.model.pk = mem om.model.pk → r f.col = mem' f.col := by
  simp only [App.save] at h
  cases hp : preSaveAll A om.model db false om.saved mem with
  | error e => rw [hp] at h; simp at h
  | ok mem1 =>
    rw [hp] at h
    simp only at h
    have hpk1 := preSaveAll_pk hP hp
    have hcol : f.col ∈ om.cols := List.mem_map.2 ⟨f, hf, rfl⟩
    split at h
    · next hany =>
      cases he : A.exec (saveUpdate om mem1) db with
      | error e => rw [he] at h; simp at h
      | ok x =>
        rw [he] at h
        simp only [Except.ok.injEq, Prod.mk.injEq] at h
        obtain ⟨rfl, rfl⟩ := h
        obtain ⟨r, hr, hw⟩ := List.any_eq_true.1 hany
        have hst := stored_update hP hu hr ((Val.sqlEq_iff.1 hw).1.trans hpk1.symm) (hpk1 ▸ hn) hpk (exec_ok he)
        rw [hpk1] at hst
        exact ⟨preSave_cacheKey hP hp hf hk, hst.1, fun r hr hk => hst.2 r hr hk _ hcol hs⟩
    · next hany =>
      cases hp2 : preSaveAll A om.model db true om.saved mem1 with
      | error e => rw [hp2] at h; simp at h
      | ok mem2 =>
        rw [hp2] at h
        simp only at h
        have hpk2 := preSaveAll_pk hP hp2
        cases he : A.exec (.insert om.model.table [mem2]) db with
        | error e => rw [he] at h; simp at h
        | ok x =>
          rw [he] at h
          simp only [Except.ok.injEq, Prod.mk.injEq] at h
          obtain ⟨rfl, rfl⟩ := h
          have hst := stored_insert hu (fun r hr e => hany (List.any_eq_true.2 ⟨r, hr, Val.sqlEq_iff.2
            ⟨e.trans (hpk2.trans hpk1), by rw [e, hpk2, hpk1]; exact hn⟩⟩)) hpk (exec_ok he)
          rw [hpk2, hpk1] at hst
          obtain ⟨inst, h1, h2⟩ := preSave_cacheKey hP hp2 hf hk
          exact ⟨⟨inst, h1.trans hpk1, h2⟩, hst.1, fun r hr hk => hst.2 r hr hk _ hs⟩

/-- The same for a new instance whose key `k` the database chooses. -/
theorem C16_create_partial {k : Val} (hP : om.Proper) (hu : om.Unique db) (hnew : ∀ r ∈ db.rows om.model.table, r om.model.pk ≠ k)
    (hf : f ∈ om.saved) (hk : f.kind.isCacheKey = true) (hs : SaveSafe A.engine om f.col) (hpk : SaveSafe A.engine om om.model.pk)
    (h : A.create om mem k db = .ok (db', mem')) :
    (∃ inst : Row, mem' f.col = .int (A.pyRand db inst f.col)) ∧ mem' om.model.pk = k ∧
    (∃ r ∈ db'.rows om.model.table, r om.model.pk = k) ∧
    ∀ r ∈ db'.rows om.model.table, r om.model.pk = k → r f.col = mem' f.col := by
  simp only [App.create] at h
  cases hp : preSaveAll A om.model db true om.saved mem with
  | error e => rw [hp] at h; simp at h
  | ok mem1 =>
    rw [hp] at h
    simp only at h
    cases he : A.exec (.insert om.model.table [mem1.set om.model.pk k]) db with
    | error e => rw [he] at h; simp at h
    | ok x =>
      rw [he] at h
      simp only [Except.ok.injEq, Prod.mk.injEq] at h
      obtain ⟨rfl, rfl⟩ := h
      have hst := stored_insert (mem := mem1.set om.model.pk k) hu (by simpa [Row.set] using hnew) hpk (exec_ok he)
      have hset : (mem1.set om.model.pk k) om.model.pk = k := by simp [Row.set]
      have hne : f.col ≠ om.model.pk := fun e => hP.pk (List.mem_map.2 ⟨f, hf, e⟩)
      rw [hset] at hst
      obtain ⟨inst, _, h2⟩ := preSave_cacheKey hP hp hf hk
      refine ⟨⟨inst, ?_⟩, hset, hst.1, fun r hr hk => hst.2 r hr hk _ hs⟩
      simpa [Row.set, hne] using h2
end

/-! ## Examples and counterexamples -/

/-- To show by evaluation that a save succeeds with a result that satisfies `P`. -/
theorem save_of {x : Except OrmErr (Db × Row)} {P : Db × Row → Prop} [DecidablePred P] (h : (match x with
      | .ok p => decide (P p)
      | _ => false) = true) : ∃ p, x = .ok p ∧ P p := by
  match x, h with
  | .ok p, h => exact ⟨p, rfl, by simpa using h⟩

instance (a : AggDenorm) (db : Db) : Decidable (CountIsRight a db) := by unfold CountIsRight; infer_instance
instance (om : OrmModel) (db : Db) : Decidable (om.Unique db) := by unfold OrmModel.Unique; infer_instance

/-- To bound by evaluation the columns that triggers reach. -/
theorem saveReached_within {E : Engine} {om : OrmModel} (K : List (TableName × Col))
    (h : ∀ tr ∈ E.triggers,
      ((tr.table = om.model.table ∧ (tr.event = .insert ∨ tr.event = .update ∧ (tr.Unconditional ∨ ∃ c ∈ tr.fields, c ∈ om.cols))) ∨
        ∃ p ∈ K, tr.table = p.1 ∧ tr.event = .update ∧ (tr.Unconditional ∨ p.2 ∈ tr.fields)) → ∀ u ∈ tr.updates, (u.table, u.col) ∈ K)
    {t : TableName} {c : Col} (hr : SaveReached E om t c) : (t, c) ∈ K := by
  induction hr with
  | inserted htr ht he hu => exact h _ htr (.inl ⟨ht, .inl he⟩) _ (DbTrigger.mem_updates.2 hu)
  | updated htr ht he hc hu => exact h _ htr (.inl ⟨ht, .inr ⟨he, hc⟩⟩) _ (DbTrigger.mem_updates.2 hu)
  | next _ htr ht he hc hu ih => exact h _ htr (.inr ⟨_, ih, ht, he, hc⟩) _ (DbTrigger.mem_updates.2 hu)

namespace Demo
set_option maxRecDepth 100000

theorem forumProper : forumOrm.Proper := ⟨by decide, by decide⟩
theorem postProper : postOrm.Proper := ⟨by decide, by decide⟩
theorem forumHolds : forumOrm.Holds postCount := fun _ => ⟨rfl, ⟨"post_count", .aggregate⟩, by simp [forumOrm], rfl, rfl⟩
theorem postHolds : postOrm.Holds postCount := fun h => absurd h (by decide)

/-- Forum 1 as a program holds it that loaded it when there were seven posts, and has now changed the title. -/
def staleForum : Row := frow 1 "Z" "" "" 7

/-- The hypotheses of `C13_save` and `C13_count_right` are met on every backend; the stored count stays 2 although the program writes 7,
and the title changes. -/
example (b : Backend) : Installed (app b).engine decls ∧ forumOrm.Proper ∧ forumOrm.Holds postCount ∧ forumOrm.Unique db ∧
    CountIsRight postCount db ∧
    ∃ p, (app b).save forumOrm staleForum db = .ok p ∧ p.2 "post_count" = .int 2 ∧
      (p.1.rows "forum").map (fun r => (r "title", r "post_count")) = [(.text "Z", .int 2), (.text "B", .int 0)] := by
  refine ⟨installed b, forumProper, forumHolds, by decide, by decide, ?_⟩
  apply save_of
  cases b <;> decide +kernel

/-- A post moves to forum 2 by an ORM save. -/
example (b : Backend) : ∃ p, (app b).save postOrm (prow 1 2 "x" "A" 0) db = .ok p ∧
    (p.1.rows "forum").map (fun r => r "post_count") = [.int 1, .int 1] := by
  apply save_of
  cases b <;> decide +kernel

/-- Scores, summed by forums, and saved through the ORM. -/
def scoreOrm : OrmModel := ⟨scored, [⟨"forum_id", .plain⟩, ⟨"points", .plain⟩]⟩
def sumApp (b : Backend) : App := ⟨sumEngine b, [forumOrm, scoreOrm], fun l => l, fun db _ _ => db.draws, 100⟩

/-- `C13_sum_right`: score 1 changes from 2 to 20 points by a save(), and the sum from 5 to 23. -/
example (b : Backend) : ∃ p, (sumApp b).save scoreOrm (srow 1 1 (.int 20)) sumDb = .ok p ∧
    (p.1.rows "forum").map (fun r => r "post_count") = [.int 23] ∧ AggOk scoreSum p.1 := by
  obtain ⟨p, h, h1, h2⟩ : ∃ p, (sumApp b).save scoreOrm (srow 1 1 (.int 20)) sumDb = .ok p ∧
      ((p.1.rows "forum").map (fun r => r "post_count") = [.int 23] ∧ p.2 "points" = .int 20) := save_of (by cases b <;> decide +kernel)
  refine ⟨p, h, h1, (C13_sum_right (A := sumApp b) (om := scoreOrm) (r := srow 1 1 (.int 2)) (D := [.aggregate scoreSum]) (show Installed _ _ from rfl)
    (ad_sum b) (sum_noReentry b) (sum_closed b) (by decide) ⟨by decide, by decide⟩ (fun h => absurd h (by decide)) (by decide) (by decide)
    (by simp [scoreOrm, scored, sumDb]) (by decide) h (fun c hc hS => ?_) (fun t r hr => ?_) (by unfold AggOk; decide)).1⟩
  · simp only [sumCols, List.mem_cons, Prod.mk.injEq, List.not_mem_nil, or_false] at hS
    rcases hS with ⟨h, _⟩ | ⟨_, rfl⟩
    · exact absurd h (by decide)
    · exact ⟨20, h2⟩
  · by_cases h1 : t = "forum"
    · subst h1; exact intRow_of (by revert r; decide)
    · by_cases h2 : t = "score"
      · subst h2; exact intRow_of (by revert r; decide)
      · simp [sumDb, h1, h2] at hr

/-- A new forum, created with the nonsensical attribute 5, starts with zero. -/
example (b : Backend) : ∃ p, (app b).create forumOrm (frow 0 "N" "" "" 5) (.int 3) db = .ok p ∧ p.2 "post_count" = .int 0 ∧
    (p.1.rows "forum").map (fun r => (r "id", r "post_count")) = [(.int 1, .int 2), (.int 2, .int 0), (.int 3, .int 0)] := by
  apply save_of
  cases b <;> decide +kernel

/-- Another session adds a post to forum 2. -/
def otherPost : Stmt := .insert "post" [prow 3 2 "z" "B" 0]

/-- The hypotheses of `C13_between_partial` are met when the other session adds a post to forum 2 while forum 1 is being saved. -/
example (b : Backend) : ∃ db1, (engine b).exec 20 otherPost db = .ok db1 ∧ forumOrm.Unique db1 ∧
    (∃ r ∈ db1.rows "forum", r "id" = .int 1 ∧ r "post_count" = .int 2) ∧
    ∃ p ∈ ((app b).saveBetween forumOrm staleForum db db1).toOption, (p.1.rows "forum").map (fun r => r "post_count") = [.int 2, .int 1] := by
  apply ok_of
  cases b <;> decide +kernel
end Demo

/-- **C13 is violated** on every backend when another session changes the instance's count between the SELECT in `pre_save` and the
UPDATE of the same save(): the count read before is written back and the change is lost. Both sessions work in autocommit mode, and the
count is right before and after the other session's statement. -/
theorem C13_violated_race (b : Backend) : ∃ (A : App) (D : List Denorm) (a : AggDenorm) (om : OrmModel) (mem : Row) (s : Stmt) (db db1 : Db),
    A.engine.backend = b ∧ Installed A.engine D ∧ AggDeclared b D a ∧ NoReentry A.engine ∧ om.Proper ∧ om.Holds a ∧ om.Unique db ∧
    mem ∈ db.rows om.model.table ∧ CountIsRight a db ∧ CountLegal a db s ∧ A.engine.exec A.fuel s db = .ok db1 ∧ CountIsRight a db1 ∧
    ∃ p, A.saveBetween om mem db db1 = .ok p ∧ ¬ CountIsRight a p.1 := by
  have h : ∃ db1, (Demo.app b).engine.exec (Demo.app b).fuel Demo.otherPost Demo.db = .ok db1 ∧ CountIsRight Demo.postCount db1 ∧
      ∃ p ∈ ((Demo.app b).saveBetween Demo.forumOrm (Demo.frow 2 "B" "" "" 0) Demo.db db1).toOption, ¬ CountIsRight Demo.postCount p.1 := by
    apply ok_of
    cases b <;> decide +kernel
  obtain ⟨db1, h1, h2, p, h3, h4⟩ := h
  refine ⟨Demo.app b, Demo.decls, Demo.postCount, Demo.forumOrm, Demo.frow 2 "B" "" "" 0, Demo.otherPost, Demo.db, db1, rfl, Demo.installed b,
    Demo.ad_postCount b, Demo.noReentry b, Demo.forumProper, Demo.forumHolds, by decide, by simp [Demo.forumOrm, Demo.forum, Demo.db],
    by decide, fun h => absurd h (by decide), h1, h2, p, ?_, h4⟩
  cases hx : (Demo.app b).saveBetween Demo.forumOrm (Demo.frow 2 "B" "" "" 0) Demo.db db1 with
  | error e => rw [hx] at h3; simp [Except.toOption] at h3
  | ok q => rw [hx] at h3; simp only [Except.toOption, Option.mem_def, Option.some.injEq] at h3; rw [h3]

/-- **C46 is violated** on every backend: `Forum(id=3, ..).save()` raises IndexError, because `pre_save` looks up the count of the row
that does not exist yet. -/
theorem C46_violated_explicit_key (b : Backend) : ∃ (A : App) (om : OrmModel) (mem : Row) (db : Db),
    A.engine.backend = b ∧ om.Proper ∧ om.Unique db ∧ mem om.model.pk ≠ .null ∧
    (∀ r ∈ db.rows om.model.table, r om.model.pk ≠ mem om.model.pk) ∧ A.save om mem db = .error .indexError :=
  ⟨Demo.app b, Demo.forumOrm, Demo.frow 3 "N" "" "" 0, Demo.db, rfl, Demo.forumProper, by decide, by decide, by decide,
    by cases b <;> rfl⟩

namespace Keys
set_option maxRecDepth 100000

def forumOrm : OrmModel := ⟨forum, [⟨"section_id", .plain⟩, ⟨"key", .cacheKey⟩]⟩
def app (b : Backend) : App := ⟨engine b, [forumOrm], fun l => l, fun _ r _ => match r "id" with | .int i => 1000 + i | _ => 1000, 100⟩

theorem forumProper : forumOrm.Proper := ⟨by decide, by decide⟩

theorem safe (b : Backend) (c : Col) : SaveSafe (engine b) forumOrm c := by
  refine .inr fun h => ?_
  have := saveReached_within (K := []) ?_ h
  · simp at this
  · cases b <;> decide

/-- The hypotheses of `C16_save_partial` are met: an existing forum, and a new one with an explicit key. -/
example (b : Backend) : forumOrm.Proper ∧ forumOrm.Unique db ∧ SaveSafe (app b).engine forumOrm "key" ∧
    SaveSafe (app b).engine forumOrm "id" ∧
    (∃ p, (app b).save forumOrm (frow 2 2 0) db = .ok p ∧ p.2 "key" = .int 1002 ∧
      (p.1.rows "forum").map (fun r => r "key") = [.int 11, .int 1002, .int 13]) ∧
    ∃ p, (app b).save forumOrm (frow 9 2 0) db = .ok p ∧ p.2 "key" = .int 1009 ∧
      (p.1.rows "forum").map (fun r => r "key") = [.int 11, .int 12, .int 13, .int 1009] := by
  refine ⟨forumProper, by decide, safe b _, safe b _, ?_, ?_⟩ <;> apply save_of <;> cases b <;> decide +kernel

/-- The hypotheses of `C16_create_partial` are met. -/
example (b : Backend) : (∀ r ∈ db.rows "forum", r "id" ≠ .int 4) ∧ ∃ p, (app b).create forumOrm (frow 0 2 0) (.int 4) db = .ok p ∧
      (p.1.rows "forum").map (fun r => r "key") = [.int 11, .int 12, .int 13, p.2 "key"] := by
  refine ⟨by decide, ?_⟩
  apply save_of
  cases b <;> decide +kernel
end Keys

/-! A forum counts its posts, and the posts' CacheKeyField depends on the forum. -/
namespace Renew
open Demo (fld fkf row)
set_option maxRecDepth 100000

def forum : Model :=
  { repr := "<class 'app.Forum'>", appLabel := "app", name := "Forum", table := "forum", pkTable := "forum", pk := "id", ct := 1,
    fields := [fld "id", fld "post_count"] }
def postForum : Field := fkf "forum" "<class 'app.Forum'>"
def post : Model :=
  { repr := "<class 'app.Post'>", appLabel := "app", name := "Post", table := "post", pkTable := "post", pk := "id", ct := 2,
    fields := [fld "id", postForum, fld "key"] }
/-- `CountField('post_set', skip=['key'])` -/
def postCount : AggDenorm := { model := forum, fieldname := "post_count", related := post, fk := postForum, agg := .count, skip := ["key"] }
def postKey : KeyField := { model := post, field := "key", deps := [⟨⟨post, forum, .forward postForum, []⟩, ["post_count"]⟩] }
def decls : List Denorm := [.aggregate postCount, postKey.denorm]
def engine (b : Backend) : Engine := ⟨b, installedTriggers b decls, fun n => 100 + n⟩
def postOrm : OrmModel := ⟨post, [⟨"forum_id", .plain⟩, ⟨"key", .cacheKey⟩]⟩
def app (b : Backend) : App := ⟨engine b, [postOrm], fun l => l, fun _ _ _ => 1000, 100⟩
def db : Db :=
  ⟨fun t => if t = "forum" then [row [("id", .int 1), ("post_count", .int 0)]] else [], [], 0⟩
def prow (id : Int) : Row := row [("id", .int id), ("forum_id", .int 1), ("key", .int 0)]
end Renew

/-- **C16 is violated** on sqlite and PostgreSQL: creating a post changes the forum's count, which in turn renews the cache keys of the
forum's posts, also that of the post just created. The attribute and the database disagree after save(). (MySQL refuses the statement.) -/
theorem C16_violated_own_trigger (b : Backend) (hb : b ≠ .mysql) : ∃ (A : App) (D : List Denorm) (om : OrmModel) (mem : Row) (db : Db) (f : SaveField),
    A.engine.backend = b ∧ Installed A.engine D ∧ NoReentry A.engine ∧ om.Proper ∧ om.Unique db ∧ mem om.model.pk ≠ .null ∧ f ∈ om.saved ∧
    f.kind.isCacheKey = true ∧ ∃ p, A.save om mem db = .ok p ∧
      ∃ r ∈ p.1.rows om.model.table, r om.model.pk = mem om.model.pk ∧ r f.col ≠ p.2 f.col := by
  refine ⟨Renew.app b, Renew.decls, Renew.postOrm, Renew.prow 1, Renew.db, ⟨"key", .cacheKey⟩, rfl, rfl, ?_, ⟨by decide, by decide⟩,
    by decide, by decide, by simp [Renew.postOrm], rfl, ?_⟩
  · apply noReentry_of (fun n => if n = "denorm_after_row_update_on_forum" then 0 else 1)
    cases b <;> decide
  · apply save_of
    cases b
    · decide +kernel
    · exact absurd rfl hb
    · decide +kernel

end Denorm
