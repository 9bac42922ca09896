import Verif.Lemmas.FlushRun
import Verif.Lemmas.Calls
import Verif.Lemmas.Transactions
import Verif.Spec.MultiTable
/-!
# Saves of multi-table children
-/
namespace Denorm

section
variable {A : App} {D : List Denorm} {om p c : OrmModel} {cb : Callback} {db db' : Db} {parent : OrmModel → Option OrmModel} {newer : Bool}

theorem inDatabase_any {mem : Row} : InDatabase om mem db ↔ (db.rows om.model.table).any (isRowOf om.model (mem om.model.pk)) = true := by
  simp only [InDatabase, List.any_eq_true, isRowOf, Val.sqlEq_iff]
  constructor
  · rintro ⟨r, h1, h2, h3⟩
    exact ⟨r, h1, h2, by rw [h2]; exact h3⟩
  · rintro ⟨r, h1, h2, h3⟩
    exact ⟨r, h1, h2, by rw [← h2]; exact h3⟩

/-- The attributes of the child after its key has been taken from the parent, if it had that key. -/
theorem Row.set_same {r : Row} {c : Col} {v : Val} (h : r c = v) : r.set c v = r := by
  funext x
  simp only [Row.set]
  split
  · rename_i e; rw [e, h]
  · rfl

theorem save_pk (hpk : om.model.pk ∉ om.cols) {mem mem' : Row} (h : A.save om mem db = .ok (db', mem')) : mem' om.model.pk = mem om.model.pk := by
  have hn : ∀ f ∈ om.saved, f.col ≠ om.model.pk := fun f hf e => hpk (List.mem_map.2 ⟨f, hf, e⟩)
  rcases save_issues h with ⟨_, h1, _⟩ | ⟨_, m1, h1, h2, _⟩
  · exact preSaveAll_other h1 _ hn
  · rw [preSaveAll_other h2 _ hn, preSaveAll_other h1 _ hn]

theorem create_pk {mem mem' : Row} {k : Val} (h : A.create om mem k db = .ok (db', mem')) : mem' om.model.pk = k := by
  unfold App.create at h
  cases h1 : preSaveAll A om.model db true om.saved mem with
  | error e => rw [h1] at h; cases h
  | ok m1 =>
    rw [h1] at h
    simp only at h
    cases h2 : A.exec (.insert om.model.table [m1.set om.model.pk k]) db with
    | error e => rw [h2] at h; cases h
    | ok d =>
      rw [h2] at h
      simp only [Except.ok.injEq, Prod.mk.injEq] at h
      rw [← h.2]
      simp [Row.set]

theorem syncLink_eq {pm cm : Row} (h : pm p.model.pk = cm c.model.pk) : syncLink p c pm cm = pm := by
  unfold syncLink
  split
  · exact Row.set_same h
  · rfl

/-- save() of a child that is in the database: two ordinary saves. -/
theorem saveChild_existing (hpk : p.model.pk ∉ p.cols) {pm cm pm' cm' : Row} {k : Val} (hk : pm p.model.pk = cm c.model.pk) (hx : InDatabase p pm db)
    (h : A.saveChild newer false p c pm cm k db = .ok (db', pm', cm')) :
    ∃ db1, A.save p pm db = .ok (db1, pm') ∧ A.save c cm db1 = .ok (db', cm') := by
  unfold App.saveChild at h
  rw [syncLink_eq hk] at h
  have hn : pm p.model.pk ≠ .null := by obtain ⟨_, _, _, hn⟩ := hx; exact hn
  simp only [App.saveParent, if_neg hn, inDatabase_any.1 hx] at h
  cases hs : A.save p pm db with
  | error e => rw [hs] at h; cases h
  | ok x =>
    obtain ⟨db1, pm1⟩ := x
    rw [hs] at h
    simp only [Bool.not_true, Bool.and_false, Bool.or_self, Bool.false_eq_true, if_false] at h
    rw [save_pk hpk hs, hk, Row.set_same rfl] at h
    cases hs2 : A.save c cm db1 with
    | error e => rw [hs2] at h; cases h
    | ok y =>
      obtain ⟨db2, cm1⟩ := y
      rw [hs2] at h
      simp only [Except.ok.injEq, Prod.mk.injEq] at h
      obtain ⟨rfl, rfl, rfl⟩ := h
      exact ⟨db1, rfl, hs2⟩

/-- `pre_save` of a CountField or SumField raises if there is no row with the key, whatever the other fields do. -/
theorem preSaveAll_indexError {m : Model} (hno : ∀ r ∈ db.rows m.table, r m.pk ≠ k) : ∀ {fs : List SaveField} {mem : Row}, mem m.pk = k → (∀ f ∈ fs, f.col ≠ m.pk) →
    (∃ f ∈ fs, f.kind = .aggregate) → preSaveAll A m db false fs mem = .error .indexError
  | [], _, _, _, h => by obtain ⟨_, h, _⟩ := h; cases h
  | f :: fs, mem, hk, hpk, h => by
    have hf : (db.rows m.table).find? (fun r => Val.sqlEq (r m.pk) (mem m.pk)) = none := by
      refine List.find?_eq_none.2 fun r hr e => hno r hr ?_
      rw [(Val.sqlEq_iff.1 e).1, hk]
    have next : ∀ v, f.preSave A m db false mem = .ok v → f.kind ≠ .aggregate → preSaveAll A m db false (f :: fs) mem = .error .indexError := by
      intro v hv hne
      simp only [preSaveAll, hv]
      refine preSaveAll_indexError hno ?_ (fun g hg => hpk g (List.mem_cons_of_mem _ hg)) ?_
      · rw [Row.set, if_neg fun e => hpk f (List.mem_cons_self ..) e.symm, hk]
      · obtain ⟨g, hg, hga⟩ := h
        rcases List.mem_cons.1 hg with rfl | hg
        · exact absurd hga hne
        · exact ⟨g, hg, hga⟩
    cases hkind : f.kind with
    | plain => exact next _ (by simp only [SaveField.preSave, hkind]; rfl) (by rw [hkind]; simp)
    | callback cb => exact next _ (by simp only [SaveField.preSave, hkind]; rfl) (by rw [hkind]; simp)
    | cacheKey => exact next _ (by simp only [SaveField.preSave, hkind]; rfl) (by rw [hkind]; simp)
    | aggregate => simp [preSaveAll, SaveField.preSave, hkind, hf]

/-- With `add=True` no `pre_save` raises. -/
theorem preSaveAll_add (m : Model) : ∀ (fs : List SaveField) (mem : Row), ∃ mem', preSaveAll A m db true fs mem = .ok mem'
  | [], mem => ⟨mem, rfl⟩
  | f :: fs, mem => by
    obtain ⟨v, hv⟩ : ∃ v, f.preSave A m db true mem = .ok v := by
      simp only [SaveField.preSave]
      cases f.kind <;> exact ⟨_, rfl⟩
    simp only [preSaveAll, hv]
    exact preSaveAll_add m fs _

theorem create_no_indexError (mem : Row) (k : Val) : A.create om mem k db ≠ .error .indexError := by
  obtain ⟨m1, h⟩ := preSaveAll_add (A := A) (db := db) om.model om.saved mem
  simp only [App.create, h, App.exec]
  cases A.engine.exec A.fuel (.insert om.model.table [m1.set om.model.pk k]) db <;> simp

theorem Saved.hasParents (hS : KeysSafe A) (hom : om ∈ A.models) {r mem : Row} (h : Saved A om r mem db db') (hC : Children A parent) (hL : HasParents A parent db) : HasParents A parent db' := by
  intro c hc p hp b hb
  obtain ⟨a, ha, hab⟩ := (h.rows c.model.table).right hb
  obtain ⟨pa, hpa, hk⟩ := hL c hc p hp a ha
  obtain ⟨pb, hpb, hpab⟩ := (h.rows p.model.table).left hpa
  refine ⟨pb, hpb, ?_⟩
  rw [saved_pk hS hom (hC c hc p hp).1 hpab, saved_pk hS hom hc hab, hk]

/-- Saving the row of the parent and then, with what was read before, the row of the child. -/
theorem saved_child (hu : KeysUnique A db) (hS : KeysSafe A) (hC : Children A parent) (hc : c ∈ A.models) (hp : parent c = some p) {k : Val} {pr r : Row}
    (hpr : (db.rows p.model.table).find? (isRowOf p.model (r c.model.pk)) = some pr) (hr : (db.rows c.model.table).find? (isRowOf c.model k) = some r)
    {x : Db × Row × Row} (h : A.saveChild newer false p c pr r .null db = .ok x) :
    ∃ db1 pmem r1 mem, Saved A p pr pmem db db1 ∧ preSaveAll A c.model db1 false c.saved r = .ok mem ∧ (∀ c', c' ∉ c.denormCols → mem c' = r c') ∧
      Saved A c r1 mem db1 x.1 ∧ r1 c.model.pk = r c.model.pk := by
  obtain ⟨hpm, hne, hnr⟩ := hC c hc p hp
  obtain ⟨db', pm', cm'⟩ := x
  have hrm : r ∈ db.rows c.model.table := List.mem_of_find?_eq_some hr
  have hprm : pr ∈ db.rows p.model.table := List.mem_of_find?_eq_some hpr
  have hk : pr p.model.pk = r c.model.pk := (find_again hpr).2
  have hpn : pr p.model.pk ≠ .null := (hu p hpm).2 pr hprm
  obtain ⟨db1, h1, h2⟩ := saveChild_existing (hS.kept p hpm p hpm rfl) hk ⟨pr, hprm, rfl, hpn⟩ h
  obtain ⟨pmem, _, hS1⟩ := saved_of_save hu hpm (hS.kept p hpm p hpm rfl) hpr h1
  obtain ⟨r1, hr1, hrr⟩ := (hS1.rows c.model.table).left hrm
  have hk1 : r1 c.model.pk = r c.model.pk := saved_pk hS hpm hc hrr
  have hplain1 : ∀ c', c' ∉ c.denormCols → r1 c' = r c' := fun c' hc' => hrr.plain c' (hnr c' hc') fun e => absurd e hne
  have hu1 : KeysUnique A db1 := keysUnique_saved hS hpm hu hS1
  have hn1 : r1 c.model.pk ≠ .null := (hu1 c hc).2 r1 hr1
  have hpkc := hS.kept c hc c hc rfl
  have hnpk : ∀ f ∈ c.saved, f.col ≠ c.model.pk := fun f hf e => hpkc (List.mem_map.2 ⟨f, hf, e⟩)
  rcases save_issues h2 with ⟨_, hpre, he⟩ | ⟨hno, _⟩
  · have hkey : cm' c.model.pk = r c.model.pk := preSaveAll_other hpre _ hnpk
    have hfind : (db1.rows c.model.table).find? (isRowOf c.model (r1 c.model.pk)) = some r1 := by
      cases hf : (db1.rows c.model.table).find? (isRowOf c.model (r1 c.model.pk)) with
      | none => exact absurd (Val.sqlEq_iff.2 ⟨rfl, hn1⟩) (List.find?_eq_none.1 hf r1 hr1)
      | some y => rw [eq_of_key (hu1 c hc).1 (List.mem_of_find?_eq_some hf) hr1 (find_again hf).2]
    have hplain : ∀ c', c' ∉ c.denormCols → cm' c' = r1 c' := by
      intro c' hc'
      refine preSaveAll_plain hfind hpre hk1.symm hnpk c' ?_ (hplain1 c' hc').symm
      intro f hf hcomp e
      exact hc' (List.mem_map.2 ⟨f, List.mem_filter.2 ⟨hf, hcomp⟩, e⟩)
    exact ⟨db1, pmem, r1, cm', hS1, hpre, fun c' hc' => (hplain c' hc').trans (hplain1 c' hc'), saved_of_exec hu1 hc hr1 (hkey.trans hk1.symm) hplain he, hk1⟩
  · exact absurd ⟨r1, hr1, hk1, by rw [← hk1]; exact hn1⟩ hno

theorem good_saved (hG : Good A D om cb db) {om' : OrmModel} (hom' : om' ∈ A.models) {r mem : Row} (hS : Saved A om' r mem db db') : Good A D om cb db' := by
  have hF := hG.flushable
  have hT := staleMarked_exec hF.installed hF.declared hF.noReentry hS.exec (saved_legal hF hom' mem db) hG.keysOk hG.stale
  exact ⟨flushable_saved hF hom' hS, keysUnique_saved hF.safe hom' hG.keys hS, hT.1, hT.2⟩

theorem good_saveObjectTables (hC : Children A parent) (hG : Good A D om cb db) (hL : HasParents A parent db) {m : Mark} (h : A.saveObjectTables newer parent m db = .ok db') :
    Good A D om cb db' ∧ HasParents A parent db' ∧ (m.ct = cb.model.ct → ∀ r ∈ db'.rows cb.model.table, r cb.model.pk = m.oid → cb.Fresh db' r) := by
  have hF := hG.flushable
  simp only [App.saveObjectTables, App.contentObject] at h
  cases hfind : A.models.find? (fun om => om.model.ct == m.ct) with
  | none => rw [hfind] at h; simp at h
  | some om' =>
    rw [hfind] at h
    simp only at h
    have hom' : om' ∈ A.models := List.mem_of_find?_eq_some hfind
    have hsame : m.ct = cb.model.ct → om' = om := by
      intro hct
      have hf := hF.found
      rw [← hct, hfind] at hf
      exact Option.some.inj hf
    cases hrow : (db.rows om'.model.table).find? (isRowOf om'.model m.oid) with
    | none =>
      rw [hrow] at h
      simp only [Except.ok.injEq] at h
      subst h
      refine ⟨hG, hL, ?_⟩
      intro hct r hr hk
      have hom := hsame hct
      subst hom
      have hmod := hF.model
      rw [← hmod] at hr hk
      have := List.find?_eq_none.1 hrow r hr
      exact absurd (Val.sqlEq_iff.2 ⟨hk, (hG.keys _ hom').2 r hr⟩) this
    | some r =>
      rw [hrow] at h
      simp only at h
      cases hpar : parent om' with
      | none =>
        rw [hpar] at h
        simp only at h
        cases hs : A.save om' r db with
        | error e => rw [hs] at h; simp at h
        | ok p =>
          rw [hs] at h
          simp only [Except.ok.injEq] at h
          subst h
          obtain ⟨mem, hpre, hS⟩ := saved_of_save hG.keys hom' (hF.safe.kept om' hom' om' hom' rfl) hrow hs
          refine ⟨good_saved hG hom' hS, hS.hasParents hF.safe hom' hC hL, ?_⟩
          intro hct r' hr' hk
          have hom := hsame hct
          subst hom
          refine fresh_saved hF hG.keys hS (value_of_pre hF hS.plain hpre) r' hr' ?_
          rw [hk, ← hF.model]
          exact (find_again hrow).2.symm
      | some p =>
        rw [hpar] at h
        simp only at h
        cases hpr : (db.rows p.model.table).find? (isRowOf p.model (r om'.model.pk)) with
        | none =>
          obtain ⟨pr, h1, h2⟩ := hL om' hom' p hpar r (List.mem_of_find?_eq_some hrow)
          have := List.find?_eq_none.1 hpr pr h1
          exact absurd (Val.sqlEq_iff.2 ⟨h2, (hG.keys p (hC om' hom' p hpar).1).2 pr h1⟩) this
        | some pr =>
          rw [hpr] at h
          simp only at h
          cases hs : A.saveChild newer false p om' pr r .null db with
          | error e => rw [hs] at h; simp at h
          | ok x =>
            rw [hs] at h
            simp only [Except.ok.injEq] at h
            subst h
            obtain ⟨db1, pmem, r1, mem, hS1, hpre, hplain, hS2, hk1⟩ := saved_child hG.keys hF.safe hC hom' hpar hpr hrow hs
            have hpm := (hC om' hom' p hpar).1
            have hG1 := good_saved hG hpm hS1
            refine ⟨good_saved hG1 hom' hS2, hS2.hasParents hF.safe hom' hC (hS1.hasParents hF.safe hpm hC hL), ?_⟩
            intro hct r' hr' hk
            have hom := hsame hct
            subst hom
            refine fresh_saved hG1.flushable hG1.keys hS2 (value_of_pre hG1.flushable hplain hpre) r' hr' ?_
            rw [hk, ← hF.model, hk1]
            exact (find_again hrow).2.symm

theorem linked_dropMarks (hL : HasParents A parent db) (m : Mark) : HasParents A parent (db.dropMarks m) := hL

theorem good_flushListTables (hC : Children A parent) : ∀ (ms : List Mark) {db db' : Db}, Good A D om cb db → HasParents A parent db → A.flushListTables newer parent ms db = .ok db' →
    Good A D om cb db' ∧ HasParents A parent db'
  | [], db, db', hG, hL, h => by
    simp only [App.flushListTables, Except.ok.injEq] at h
    exact h ▸ ⟨hG, hL⟩
  | m :: ms, db, db', hG, hL, h => by
    simp only [App.flushListTables] at h
    cases hs : A.saveObjectTables newer parent m db with
    | error e => rw [hs] at h; simp at h
    | ok db1 =>
      rw [hs] at h
      obtain ⟨h1, h2, h3⟩ := good_saveObjectTables hC hG hL hs
      exact good_flushListTables hC ms (good_dropMarks h1 h3) (linked_dropMarks h2 m) h

theorem good_flushTables (hC : Children A parent) : ∀ (n : Nat) {db db' : Db}, Good A D om cb db → HasParents A parent db → A.flushTables newer parent n db = .ok (some db') →
    Good A D om cb db' ∧ db'.dirty = []
  | n, db, db', hG, hL, h => by
    unfold App.flushTables at h
    by_cases hd : db.dirty = []
    · rw [if_pos hd] at h
      simp only [Except.ok.injEq, Option.some.injEq] at h
      exact h ▸ ⟨hG, hd⟩
    · rw [if_neg hd] at h
      cases n with
      | zero => simp at h
      | succ n =>
        simp only at h
        cases hs : A.flushListTables newer parent (A.snapshot db) db with
        | error e => rw [hs] at h; simp at h
        | ok db1 =>
          rw [hs] at h
          obtain ⟨h1, h2⟩ := good_flushListTables hC _ hG hL hs
          exact good_flushTables hC n h1 h2 h

end
end Denorm
