import Verif.Lemmas.MultiTableAgg
import Verif.Spec.DeepTables
/-!
# Saves of instances with any number of levels
-/
namespace Denorm

section
variable {A : App} {D : List Denorm} {om : OrmModel} {cb : Callback} {db db' : Db} {above : OrmModel → List OrmModel} {newer force : Bool} {k : Val}

theorem saveLevel_call {insert : Bool} {l : InTable} {mem : Row} {ins : Bool} (h : A.saveLevel insert k l db = .ok (db', mem, ins)) :
    A.call db (levelCall insert k l) = .ok db' := by
  unfold App.saveLevel at h
  unfold levelCall
  by_cases hn : l.2 l.1.model.pk = .null
  · rw [if_pos hn] at h ⊢
    cases hc : A.create l.1 l.2 k db with
    | error e => rw [hc] at h; cases h
    | ok x =>
      rw [hc] at h
      simp only [Except.ok.injEq, Prod.mk.injEq] at h
      obtain ⟨rfl, rfl, rfl⟩ := h
      simp [App.call, callErr, hc]
  · rw [if_neg hn] at h ⊢
    by_cases hi : insert = true
    · rw [if_pos hi] at h ⊢
      cases hc : A.create l.1 l.2 (l.2 l.1.model.pk) db with
      | error e => rw [hc] at h; cases h
      | ok x =>
        rw [hc] at h
        simp only [Except.ok.injEq, Prod.mk.injEq] at h
        obtain ⟨rfl, rfl, rfl⟩ := h
        simp [App.call, callErr, hc]
    · rw [if_neg hi] at h ⊢
      cases hc : A.save l.1 l.2 db with
      | error e => rw [hc] at h; cases h
      | ok x =>
        rw [hc] at h
        simp only [Except.ok.injEq, Prod.mk.injEq] at h
        obtain ⟨rfl, rfl, _⟩ := h
        simp [App.call, callErr, hc]

/-- What every allowed call keeps, a save of any number of levels keeps. -/
theorem saveLevels_keeps {P : Db → OrmCall → Prop} {I : Db → Prop} (hI : ∀ {x y : Db} {c : OrmCall}, P x c → A.call x c = .ok y → I x → I y) :
    ∀ (ls : List InTable) {up : Option (Val × Bool)} {db db' : Db}, LevelsAllowed A newer force k P up ls db → I db → A.saveLevels newer force k up ls db = .ok db' → I db'
  | [], up, db, db', _, hi, h => by
    simp only [App.saveLevels, Except.ok.injEq] at h
    exact h ▸ hi
  | l :: ls, up, db, db', hL, hi, h => by
    simp only [App.saveLevels] at h
    cases hs : A.saveLevel (insertLevel newer force up ls.isEmpty) k (linkLevel up l) db with
    | error e => rw [hs] at h; cases h
    | ok x =>
      obtain ⟨db1, mem, ins⟩ := x
      rw [hs] at h
      exact saveLevels_keeps hI ls (hL.2 db1 mem ins hs) (hI hL.1 (saveLevel_call hs) hi) h

/-- The row of this level is in the database, and the attributes that are not computed are as they were read. -/
def Current (db : Db) (l : InTable) : Prop :=
  ∃ r1 ∈ db.rows l.1.model.table, r1 l.1.model.pk = l.2 l.1.model.pk ∧ ∀ c, c ∉ l.1.denormCols → l.2 c = r1 c

theorem saved_current (hu : KeysUnique A db) (hS : KeysSafe A) {l : InTable} (hl : l.1 ∈ A.models) (hc : Current db l) {x : Db × Row} (h : A.save l.1 l.2 db = .ok x) :
    ∃ r1 mem, preSaveAll A l.1.model db false l.1.saved l.2 = .ok mem ∧ (∀ c, c ∉ l.1.denormCols → mem c = l.2 c) ∧ Saved A l.1 r1 mem db x.1 ∧
      r1 l.1.model.pk = l.2 l.1.model.pk := by
  obtain ⟨c, r⟩ := l
  obtain ⟨db', cm'⟩ := x
  obtain ⟨r1, hr1, hk1, hplain1⟩ := hc
  simp only at hl hr1 hk1 hplain1 h ⊢
  have hn1 : r1 c.model.pk ≠ .null := (hu c hl).2 r1 hr1
  have hpkc := hS.kept c hl c hl rfl
  have hnpk : ∀ f ∈ c.saved, f.col ≠ c.model.pk := fun f hf e => hpkc (List.mem_map.2 ⟨f, hf, e⟩)
  rcases save_issues h with ⟨_, hpre, he⟩ | ⟨hno, _⟩
  · have hkey : cm' c.model.pk = r c.model.pk := preSaveAll_other hpre _ hnpk
    have hfind : (db.rows c.model.table).find? (isRowOf c.model (r1 c.model.pk)) = some r1 := by
      cases hf : (db.rows c.model.table).find? (isRowOf c.model (r1 c.model.pk)) with
      | none => exact absurd (Val.sqlEq_iff.2 ⟨rfl, hn1⟩) (List.find?_eq_none.1 hf r1 hr1)
      | some y => rw [eq_of_key (hu c hl).1 (List.mem_of_find?_eq_some hf) hr1 (find_again hf).2]
    have hplain : ∀ c', c' ∉ c.denormCols → cm' c' = r1 c' := by
      intro c' hc'
      refine preSaveAll_plain hfind hpre hk1.symm hnpk c' ?_ (hplain1 c' hc')
      intro f hf hcomp e
      exact hc' (List.mem_map.2 ⟨f, List.mem_filter.2 ⟨hf, hcomp⟩, e⟩)
    exact ⟨r1, cm', hpre, fun c' hc' => (hplain c' hc').trans (hplain1 c' hc').symm, saved_of_exec hu hl hr1 (hkey.trans hk1.symm) hplain he, hk1⟩
  · exact absurd ⟨r1, hr1, hk1, by rw [← hk1]; exact hn1⟩ hno

theorem Saved.hasAncestors (hS : KeysSafe A) (hom : om ∈ A.models) {r mem : Row} (h : Saved A om r mem db db') (hC : Ancestors A above) (hL : HasAncestors A above db) :
    HasAncestors A above db' := by
  intro c hc p hp b hb
  obtain ⟨a, ha, hab⟩ := (h.rows c.model.table).right hb
  obtain ⟨pa, hpa, hk⟩ := hL c hc p hp a ha
  obtain ⟨pb, hpb, hpab⟩ := (h.rows p.model.table).left hpa
  refine ⟨pb, hpb, ?_⟩
  rw [saved_pk hS hom ((hC c hc).1 p hp) hpab, saved_pk hS hom hc hab, hk]

/-- A level of an existing instance is saved like any instance. -/
theorem saveLevel_existing {l : InTable} (hl : l.1.model.pk ∉ l.1.cols) {κ : Val} (hk : l.2 l.1.model.pk = κ) (hκ : κ ≠ .null) (hc : Current db l) {up : Option (Val × Bool)}
    (hup : up = none ∨ up = some (κ, false)) {last : Bool} {x : Db × Row × Bool} (h : A.saveLevel (insertLevel newer false up last) k (linkLevel up l) db = .ok x) :
    A.save l.1 l.2 db = .ok (x.1, x.2.1) ∧ x.2.1 l.1.model.pk = κ ∧ x.2.2 = false := by
  have hlink : linkLevel up l = l := by
    rcases hup with rfl | rfl
    · rfl
    · simp only [linkLevel]
      rw [Row.set_same hk]
  have hins : insertLevel newer false up last = false := by rcases hup with rfl | rfl <;> simp [insertLevel]
  rw [hlink, hins] at h
  unfold App.saveLevel at h
  rw [if_neg (by rw [hk]; exact hκ)] at h
  simp only [Bool.false_eq_true, if_false] at h
  cases hs : A.save l.1 l.2 db with
  | error e => rw [hs] at h; cases h
  | ok y =>
    rw [hs] at h
    simp only [Except.ok.injEq] at h
    subst h
    refine ⟨rfl, (save_pk (db' := y.1) (mem' := y.2) hl hs).trans hk, ?_⟩
    obtain ⟨r1, hr1, hk1, _⟩ := hc
    have : (db.rows l.1.model.table).any (isRowOf l.1.model (l.2 l.1.model.pk)) = true :=
      inDatabase_any.1 ⟨r1, hr1, hk1, by rw [hk]; exact hκ⟩
    simp [this]

theorem good_saveLevels (hC : Ancestors A above) {κ : Val} (hκ : κ ≠ .null) : ∀ (ls : List InTable) {up : Option (Val × Bool)} {db db' : Db}, (up = none ∨ up = some (κ, false)) →
    Good A D om cb db → HasAncestors A above db → (∀ l ∈ ls, l.1 ∈ A.models ∧ l.2 l.1.model.pk = κ ∧ Current db l) →
    ls.Pairwise (fun p c => c.1.model.table ≠ p.1.model.table ∧ ∀ col, col ∉ c.1.denormCols → ¬ Reached A.engine p.1 c.1.model.table col) →
    A.saveLevels newer false k up ls db = .ok db' →
    Good A D om cb db' ∧ HasAncestors A above db' ∧ ∀ l, ls.getLast? = some l → l.1 = om → ∀ r ∈ db'.rows cb.model.table, r cb.model.pk = κ → cb.Fresh db' r
  | [], up, db, db', _, hG, hL, _, _, h => by
    simp only [App.saveLevels, Except.ok.injEq] at h
    subst h
    exact ⟨hG, hL, fun l hl => by simp at hl⟩
  | l :: ls, up, db, db', hup, hG, hL, hls, hpw, h => by
    simp only [App.saveLevels] at h
    cases hs : A.saveLevel (insertLevel newer false up ls.isEmpty) k (linkLevel up l) db with
    | error e => rw [hs] at h; cases h
    | ok x =>
      obtain ⟨db1, mem, ins⟩ := x
      rw [hs] at h
      simp only at h
      obtain ⟨hl, hk, hcur⟩ := hls l (List.mem_cons_self ..)
      have hF := hG.flushable
      obtain ⟨hsave, hmem, hins⟩ := saveLevel_existing (hF.safe.kept _ hl _ hl rfl) hk hκ hcur hup hs
      simp only at hsave hmem hins
      subst hins
      rw [hmem] at h
      obtain ⟨r1, mem1, hpre, hplain, hS, hk1⟩ := saved_current hG.keys hF.safe hl hcur hsave
      simp only at hS
      have hG1 := good_saved hG hl hS
      have hL1 := hS.hasAncestors hF.safe hl hC hL
      rw [List.pairwise_cons] at hpw
      have hcur' : ∀ l' ∈ ls, l'.1 ∈ A.models ∧ l'.2 l'.1.model.pk = κ ∧ Current db1 l' := by
        intro l' hl'
        obtain ⟨h1, h2, r2, hr2, hk2, hp2⟩ := hls l' (List.mem_cons_of_mem _ hl')
        refine ⟨h1, h2, ?_⟩
        obtain ⟨r3, hr3, hrr⟩ := (hS.rows l'.1.model.table).left hr2
        obtain ⟨hne, hnr⟩ := hpw.1 l' hl'
        refine ⟨r3, hr3, (saved_pk hF.safe hl h1 hrr).trans hk2, fun c hc => ?_⟩
        rw [hp2 c hc]
        exact (hrr.plain c (hnr c hc) fun e => absurd e hne).symm
      obtain ⟨h1, h2, h3⟩ := good_saveLevels hC hκ ls (.inr rfl) hG1 hL1 hcur' hpw.2 h
      refine ⟨h1, h2, fun l0 hl0 hom r hr hrk => ?_⟩
      cases ls with
      | nil =>
        simp only [App.saveLevels, Except.ok.injEq] at h
        subst h
        simp only [List.getLast?_singleton, Option.some.injEq] at hl0
        subst hl0
        subst hom
        refine fresh_saved hF hG.keys hS (value_of_pre hF hplain hpre) r hr ?_
        rw [hrk, ← hF.model, hk1, hk]
      | cons l1 ls1 => exact h3 l0 (by rw [← hl0]; simp [List.getLast?_cons_cons]) hom r hr hrk

theorem readLevels_some {key : Val} : ∀ {ps : List OrmModel} {ls : List InTable}, readLevels db key ps = some ls →
    ls.map Prod.fst = ps ∧ ∀ l ∈ ls, (db.rows l.1.model.table).find? (isRowOf l.1.model key) = some l.2
  | [], ls, h => by
    simp only [readLevels, Option.some.injEq] at h
    subst h
    exact ⟨rfl, (fun l hl => nomatch hl)⟩
  | p :: ps, ls, h => by
    simp only [readLevels] at h
    cases hf : (db.rows p.model.table).find? (isRowOf p.model key) with
    | none => rw [hf] at h; simp at h
    | some r =>
      cases hr : readLevels db key ps with
      | none => rw [hf, hr] at h; simp at h
      | some ls' =>
        rw [hf, hr] at h
        simp only [Option.some.injEq] at h
        subst h
        obtain ⟨h1, h2⟩ := readLevels_some hr
        refine ⟨by simp [h1], fun l hl => ?_⟩
        rcases List.mem_cons.1 hl with rfl | hl
        · exact hf
        · exact h2 l hl

theorem readLevels_none {key : Val} : ∀ {ps : List OrmModel}, readLevels db key ps = none → ∃ p ∈ ps, (db.rows p.model.table).find? (isRowOf p.model key) = none
  | [], h => by simp [readLevels] at h
  | p :: ps, h => by
    simp only [readLevels] at h
    cases hf : (db.rows p.model.table).find? (isRowOf p.model key) with
    | none => exact ⟨p, List.mem_cons_self .., hf⟩
    | some r =>
      cases hr : readLevels db key ps with
      | none =>
        obtain ⟨q, hq, h1⟩ := readLevels_none hr
        exact ⟨q, List.mem_cons_of_mem _ hq, h1⟩
      | some ls' => rw [hf, hr] at h; simp at h

theorem syncLevels_same {κ : Val} : ∀ {ls : List InTable}, (∀ l ∈ ls, l.2 l.1.model.pk = κ) → syncLevels ls = ls
  | [], _ => rfl
  | l :: ls, h => by
    have ih := syncLevels_same (ls := ls) fun l' hl' => h l' (List.mem_cons_of_mem _ hl')
    simp only [syncLevels, ih]
    cases ls with
    | nil => rfl
    | cons c cs =>
      simp only
      rw [syncLink_eq ((h l (List.mem_cons_self ..)).trans (h c (List.mem_cons_of_mem _ (List.mem_cons_self ..))).symm)]

theorem good_saveObjectDeep (hC : Ancestors A above) (hG : Good A D om cb db) (hL : HasAncestors A above db) {m : Mark} (h : A.saveObjectDeep newer above m db = .ok db') :
    Good A D om cb db' ∧ HasAncestors A above db' ∧ (m.ct = cb.model.ct → ∀ r ∈ db'.rows cb.model.table, r cb.model.pk = m.oid → cb.Fresh db' r) := by
  have hF := hG.flushable
  simp only [App.saveObjectDeep, App.contentObject] at h
  cases hfind : A.models.find? (fun om => om.model.ct == m.ct) with
  | none => rw [hfind] at h; simp at h
  | some om' =>
    rw [hfind] at h
    simp only at h
    have hom' : om' ∈ A.models := List.mem_of_find?_eq_some hfind
    have hsame : m.ct = cb.model.ct → om' = om := by
      intro hct
      have hf := hF.found
      rw [← hct, hfind] at hf
      exact Option.some.inj hf
    cases hrow : (db.rows om'.model.table).find? (isRowOf om'.model m.oid) with
    | none =>
      rw [hrow] at h
      simp only [Except.ok.injEq] at h
      subst h
      refine ⟨hG, hL, ?_⟩
      intro hct r hr hk
      have hom := hsame hct
      subst hom
      have hmod := hF.model
      rw [← hmod] at hr hk
      have := List.find?_eq_none.1 hrow r hr
      exact absurd (Val.sqlEq_iff.2 ⟨hk, (hG.keys _ hom').2 r hr⟩) this
    | some r =>
      rw [hrow] at h
      simp only at h
      have hrm := List.mem_of_find?_eq_some hrow
      have hrn : r om'.model.pk ≠ .null := (hG.keys om' hom').2 r hrm
      have hro : r om'.model.pk = m.oid := (find_again hrow).2
      cases hrl : readLevels db (r om'.model.pk) (above om') with
      | none =>
        obtain ⟨p, hp, hf⟩ := readLevels_none hrl
        obtain ⟨pr, h1, h2⟩ := hL om' hom' p hp r hrm
        exact absurd (Val.sqlEq_iff.2 ⟨h2, (hG.keys p ((hC om' hom').1 p hp)).2 pr h1⟩) (List.find?_eq_none.1 hf pr h1)
      | some ls =>
        rw [hrl] at h
        simp only [App.saveDeep] at h
        obtain ⟨hmap, hls⟩ := readLevels_some hrl
        have hkeys : ∀ l ∈ ls ++ [(om', r)], l.1 ∈ A.models ∧ l.2 l.1.model.pk = r om'.model.pk ∧ Current db l := by
          intro l hl
          rcases List.mem_append.1 hl with hl | hl
          · have hx := hls l hl
            exact ⟨(hC om' hom').1 l.1 (hmap ▸ List.mem_map.2 ⟨l, hl, rfl⟩), (find_again hx).2, l.2, List.mem_of_find?_eq_some hx, rfl, fun _ _ => rfl⟩
          · rw [List.mem_singleton] at hl
            subst hl
            exact ⟨hom', rfl, r, hrm, rfl, fun _ _ => rfl⟩
        rw [syncLevels_same fun l hl => (hkeys l hl).2.1] at h
        have hpw : (ls ++ [(om', r)]).Pairwise (fun p c => c.1.model.table ≠ p.1.model.table ∧ ∀ col, col ∉ c.1.denormCols → ¬ Reached A.engine p.1 c.1.model.table col) := by
          have := (hC om' hom').2
          rw [← hmap, show ls.map Prod.fst ++ [om'] = (ls ++ [(om', r)]).map Prod.fst by simp, List.pairwise_map] at this
          exact this
        obtain ⟨h1, h2, h3⟩ := good_saveLevels hC hrn _ (.inl rfl) hG hL hkeys hpw h
        refine ⟨h1, h2, fun hct r' hr' hk => h3 (om', r) (by simp) (hsame hct) r' hr' (hk.trans hro.symm)⟩

theorem good_flushListDeep (hC : Ancestors A above) : ∀ (ms : List Mark) {db db' : Db}, Good A D om cb db → HasAncestors A above db → A.flushListDeep newer above ms db = .ok db' →
    Good A D om cb db' ∧ HasAncestors A above db'
  | [], db, db', hG, hL, h => by
    simp only [App.flushListDeep, Except.ok.injEq] at h
    exact h ▸ ⟨hG, hL⟩
  | m :: ms, db, db', hG, hL, h => by
    simp only [App.flushListDeep] at h
    cases hs : A.saveObjectDeep newer above m db with
    | error e => rw [hs] at h; simp at h
    | ok db1 =>
      rw [hs] at h
      obtain ⟨h1, h2, h3⟩ := good_saveObjectDeep hC hG hL hs
      exact good_flushListDeep hC ms (good_dropMarks h1 h3) h2 h

theorem good_flushDeep (hC : Ancestors A above) : ∀ (n : Nat) {db db' : Db}, Good A D om cb db → HasAncestors A above db → A.flushDeep newer above n db = .ok (some db') →
    Good A D om cb db' ∧ db'.dirty = []
  | n, db, db', hG, hL, h => by
    unfold App.flushDeep at h
    by_cases hd : db.dirty = []
    · rw [if_pos hd] at h
      simp only [Except.ok.injEq, Option.some.injEq] at h
      exact h ▸ ⟨hG, hd⟩
    · rw [if_neg hd] at h
      cases n with
      | zero => simp at h
      | succ n =>
        simp only at h
        cases hs : A.flushListDeep newer above (A.snapshot db) db with
        | error e => rw [hs] at h; simp at h
        | ok db1 =>
          rw [hs] at h
          obtain ⟨h1, h2⟩ := good_flushListDeep hC _ hG hL hs
          exact good_flushDeep hC n h1 h2 h

/-! ### What every save keeps -/

variable {I : Db → Prop}

theorem kept_saveLevels (hS : KeysSafe A) (hI : KeptBySaves A I) {db0 : Db} (hi0 : I db0) {κ : Val} (hκ : κ ≠ .null) : ∀ (ls : List InTable) {up : Option (Val × Bool)} {db db' : Db},
    (up = none ∨ up = some (κ, false)) → KeysUnique A db → I db → (∀ l ∈ ls, l.1 ∈ A.models ∧ l.2 l.1.model.pk = κ ∧ l.2 ∈ db0.rows l.1.model.table ∧ Current db l) →
    ls.Pairwise (fun p c => c.1.model.table ≠ p.1.model.table ∧ ∀ col, col ∉ c.1.denormCols → ¬ Reached A.engine p.1 c.1.model.table col) →
    A.saveLevels newer false k up ls db = .ok db' → I db' ∧ KeysUnique A db'
  | [], up, db, db', _, hu, hi, _, _, h => by
    simp only [App.saveLevels, Except.ok.injEq] at h
    exact h ▸ ⟨hi, hu⟩
  | l :: ls, up, db, db', hup, hu, hi, hls, hpw, h => by
    simp only [App.saveLevels] at h
    cases hs : A.saveLevel (insertLevel newer false up ls.isEmpty) k (linkLevel up l) db with
    | error e => rw [hs] at h; cases h
    | ok x =>
      obtain ⟨db1, mem, ins⟩ := x
      rw [hs] at h
      simp only at h
      obtain ⟨hl, hk, hl0, hcur⟩ := hls l (List.mem_cons_self ..)
      obtain ⟨hsave, hmem, hins⟩ := saveLevel_existing (hS.kept _ hl _ hl rfl) hk hκ hcur hup hs
      simp only at hsave hmem hins
      subst hins
      rw [hmem] at h
      obtain ⟨r1, mem1, _, _, hsv, _⟩ := saved_current hu hS hl hcur hsave
      simp only at hsv
      rw [List.pairwise_cons] at hpw
      refine kept_saveLevels hS hI hi0 hκ ls (.inr rfl) (keysUnique_saved hS hl hu hsv) (hI l.1 hl db0 db l.2 _ hu hi hi0 hl0 (by rw [hk]; exact hκ) hsave) ?_ hpw.2 h
      intro l' hl'
      obtain ⟨h1, h2, h3, r2, hr2, hk2, hp2⟩ := hls l' (List.mem_cons_of_mem _ hl')
      refine ⟨h1, h2, h3, ?_⟩
      obtain ⟨r3, hr3, hrr⟩ := (hsv.rows l'.1.model.table).left hr2
      obtain ⟨hne, hnr⟩ := hpw.1 l' hl'
      refine ⟨r3, hr3, (saved_pk hS hl h1 hrr).trans hk2, fun c hc => ?_⟩
      rw [hp2 c hc]
      exact (hrr.plain c (hnr c hc) fun e => absurd e hne).symm

theorem kept_saveObjectDeep (hS : KeysSafe A) (hC : Ancestors A above) (hI : KeptBySaves A I) {db db' : Db} (hu : KeysUnique A db) (hi : I db) {m : Mark}
    (h : A.saveObjectDeep newer above m db = .ok db') : I db' ∧ KeysUnique A db' := by
  simp only [App.saveObjectDeep, App.contentObject] at h
  cases hfind : A.models.find? (fun om => om.model.ct == m.ct) with
  | none => rw [hfind] at h; simp at h
  | some om =>
    rw [hfind] at h
    simp only at h
    have hom : om ∈ A.models := List.mem_of_find?_eq_some hfind
    cases hrow : (db.rows om.model.table).find? (isRowOf om.model m.oid) with
    | none =>
      rw [hrow] at h
      simp only [Except.ok.injEq] at h
      exact h ▸ ⟨hi, hu⟩
    | some r =>
      rw [hrow] at h
      simp only at h
      have hr : r ∈ db.rows om.model.table := List.mem_of_find?_eq_some hrow
      have hn : r om.model.pk ≠ .null := (hu om hom).2 r hr
      cases hrl : readLevels db (r om.model.pk) (above om) with
      | none =>
        rw [hrl] at h
        simp only [Except.ok.injEq] at h
        exact h ▸ ⟨hi, hu⟩
      | some ls =>
        rw [hrl] at h
        simp only [App.saveDeep] at h
        obtain ⟨hmap, hls⟩ := readLevels_some hrl
        have hkeys : ∀ l ∈ ls ++ [(om, r)], l.1 ∈ A.models ∧ l.2 l.1.model.pk = r om.model.pk ∧ l.2 ∈ db.rows l.1.model.table ∧ Current db l := by
          intro l hl
          rcases List.mem_append.1 hl with hl | hl
          · have hx := hls l hl
            exact ⟨(hC om hom).1 l.1 (hmap ▸ List.mem_map.2 ⟨l, hl, rfl⟩), (find_again hx).2, List.mem_of_find?_eq_some hx, l.2, List.mem_of_find?_eq_some hx, rfl, fun _ _ => rfl⟩
          · rw [List.mem_singleton] at hl
            subst hl
            exact ⟨hom, rfl, hr, r, hr, rfl, fun _ _ => rfl⟩
        rw [syncLevels_same fun l hl => (hkeys l hl).2.1] at h
        have hpw : (ls ++ [(om, r)]).Pairwise (fun p c => c.1.model.table ≠ p.1.model.table ∧ ∀ col, col ∉ c.1.denormCols → ¬ Reached A.engine p.1 c.1.model.table col) := by
          have := (hC om hom).2
          rw [← hmap, show ls.map Prod.fst ++ [om] = (ls ++ [(om, r)]).map Prod.fst by simp, List.pairwise_map] at this
          exact this
        exact kept_saveLevels hS hI hi hn _ (.inl rfl) hu hi hkeys hpw h

theorem kept_flushListDeep (hS : KeysSafe A) (hC : Ancestors A above) (hI : KeptBySaves A I) (hd : ∀ db m, I db → I (Db.dropMarks db m)) :
    ∀ (ms : List Mark) {db db' : Db}, KeysUnique A db → I db → A.flushListDeep newer above ms db = .ok db' → I db' ∧ KeysUnique A db'
  | [], db, db', hu, hi, h => by
    simp only [App.flushListDeep, Except.ok.injEq] at h
    exact h ▸ ⟨hi, hu⟩
  | m :: ms, db, db', hu, hi, h => by
    simp only [App.flushListDeep] at h
    cases hs : A.saveObjectDeep newer above m db with
    | error e => rw [hs] at h; simp at h
    | ok db1 =>
      rw [hs] at h
      obtain ⟨h1, h2⟩ := kept_saveObjectDeep hS hC hI hu hi hs
      exact kept_flushListDeep hS hC hI hd ms (db := db1.dropMarks m) h2 (hd _ m h1) h

theorem kept_flushDeep (hS : KeysSafe A) (hC : Ancestors A above) (hI : KeptBySaves A I) (hd : ∀ db m, I db → I (Db.dropMarks db m)) :
    ∀ (n : Nat) {db db' : Db}, KeysUnique A db → I db → A.flushDeep newer above n db = .ok (some db') → I db'
  | n, db, db', hu, hi, h => by
    unfold App.flushDeep at h
    by_cases hd' : db.dirty = []
    · rw [if_pos hd'] at h
      simp only [Except.ok.injEq, Option.some.injEq] at h
      exact h ▸ hi
    · rw [if_neg hd'] at h
      cases n with
      | zero => simp at h
      | succ n =>
        simp only at h
        cases hs : A.flushListDeep newer above (A.snapshot db) db with
        | error e => rw [hs] at h; simp at h
        | ok db1 =>
          rw [hs] at h
          obtain ⟨h1, h2⟩ := kept_flushListDeep hS hC hI hd _ hu hi hs
          exact kept_flushDeep hS hC hI hd n h2 h1 h

/-- With a Django that inserts below what it inserted, every level of a new instance is inserted: no `pre_save` raises. -/
theorem saveLevels_inserting : ∀ (ls : List InTable) {up : Option (Val × Bool)} {db : Db}, (∀ l, up = none → ls.head? = some l → l.2 l.1.model.pk = .null) → (∀ x, up = some x → x.2 = true) →
    A.saveLevels true force k up ls db ≠ .error .indexError
  | [], up, db, _, _ => by simp [App.saveLevels]
  | l :: ls, up, db, hn, ht => by
    simp only [App.saveLevels]
    cases hs : A.saveLevel (insertLevel true force up ls.isEmpty) k (linkLevel up l) db with
    | error e =>
      simp only
      intro he
      injection he with he
      subst he
      unfold App.saveLevel at hs
      by_cases hnull : (linkLevel up l).2 (linkLevel up l).1.model.pk = .null
      · rw [if_pos hnull] at hs
        cases hc : A.create (linkLevel up l).1 (linkLevel up l).2 k db with
        | error e =>
          rw [hc] at hs
          injection hs with hs
          exact create_no_indexError _ _ (hc.trans (by rw [hs]))
        | ok x => rw [hc] at hs; cases hs
      · rw [if_neg hnull] at hs
        have hins : insertLevel true force up ls.isEmpty = true := by
          cases up with
          | none => exact absurd (hn l rfl rfl) hnull
          | some x => simp [insertLevel, ht x rfl]
        rw [if_pos hins] at hs
        cases hc : A.create (linkLevel up l).1 (linkLevel up l).2 ((linkLevel up l).2 (linkLevel up l).1.model.pk) db with
        | error e =>
          rw [hc] at hs
          injection hs with hs
          exact create_no_indexError _ _ (hc.trans (by rw [hs]))
        | ok x => rw [hc] at hs; cases hs
    | ok x =>
      obtain ⟨db1, mem, ins⟩ := x
      simp only
      refine saveLevels_inserting ls (fun _ h => by cases h) fun y hy => ?_
      simp only [Option.some.injEq] at hy
      subst hy
      simp only
      unfold App.saveLevel at hs
      by_cases hnull : (linkLevel up l).2 (linkLevel up l).1.model.pk = .null
      · rw [if_pos hnull] at hs
        cases hc : A.create (linkLevel up l).1 (linkLevel up l).2 k db with
        | error e => rw [hc] at hs; cases hs
        | ok x => rw [hc] at hs; injection hs with hs; simp only [Prod.mk.injEq] at hs; exact hs.2.2.symm
      · rw [if_neg hnull] at hs
        have hins : insertLevel true force up ls.isEmpty = true := by
          cases up with
          | none => exact absurd (hn l rfl rfl) hnull
          | some x => simp [insertLevel, ht x rfl]
        rw [if_pos hins] at hs
        cases hc : A.create (linkLevel up l).1 (linkLevel up l).2 ((linkLevel up l).2 (linkLevel up l).1.model.pk) db with
        | error e => rw [hc] at hs; cases hs
        | ok x => rw [hc] at hs; injection hs with hs; simp only [Prod.mk.injEq] at hs; exact hs.2.2.symm

/-- Two levels are those of `Code/MultiTable`. -/
theorem saveDeep_two {p c : OrmModel} {pm cm : Row} (hp : p.model.pk ∉ p.cols) (hk : k ≠ .null) :
    A.saveDeep newer force k [(p, pm), (c, cm)] db = (match A.saveChild newer force p c pm cm k db with
      | .ok (d, _) => .ok d
      | .error e => .error e) := by
  have hsync : syncLevels [(p, pm), (c, cm)] = [(p, syncLink p c pm cm), (c, cm)] := rfl
  unfold App.saveDeep
  rw [hsync]
  have hroot : A.saveLevel (insertLevel newer force none false) k (p, syncLink p c pm cm) db = A.saveParent p (syncLink p c pm cm) k db := by
    simp only [insertLevel, App.saveLevel, App.saveParent, Bool.and_false, Bool.or_self, Bool.false_eq_true, if_false]
    by_cases h0 : syncLink p c pm cm p.model.pk = .null
    · rw [if_pos h0, if_pos h0]
      cases A.create p (syncLink p c pm cm) k db <;> rfl
    · rw [if_neg h0, if_neg h0]
      cases A.save p (syncLink p c pm cm) db <;> rfl
  simp only [App.saveLevels, linkLevel, List.isEmpty, hroot, App.saveChild]
  cases hs : A.saveParent p (syncLink p c pm cm) k db with
  | error e => rfl
  | ok x =>
    obtain ⟨db1, pm1, ins⟩ := x
    have hn : pm1 p.model.pk ≠ .null := by
      unfold App.saveParent at hs
      by_cases h0 : syncLink p c pm cm p.model.pk = .null
      · rw [if_pos h0] at hs
        cases hc : A.create p (syncLink p c pm cm) k db with
        | error e => rw [hc] at hs; cases hs
        | ok y =>
          rw [hc] at hs
          simp only [Except.ok.injEq, Prod.mk.injEq] at hs
          obtain ⟨_, rfl, _⟩ := hs
          rw [create_pk (db' := y.1) (mem' := y.2) hc]
          exact hk
      · rw [if_neg h0] at hs
        cases hc : A.save p (syncLink p c pm cm) db with
        | error e => rw [hc] at hs; cases hs
        | ok y =>
          rw [hc] at hs
          simp only [Except.ok.injEq, Prod.mk.injEq] at hs
          obtain ⟨_, rfl, _⟩ := hs
          rw [save_pk (db' := y.1) (mem' := y.2) hp hc]
          exact h0
    have hset : (cm.set c.model.pk (pm1 p.model.pk)) c.model.pk = pm1 p.model.pk := by simp [Row.set]
    simp only [App.saveLevel, hset, if_neg hn, insertLevel, Bool.and_true]
    by_cases hb : (force || newer && ins) = true
    · rw [if_pos hb, if_pos hb]
      cases A.create c (cm.set c.model.pk (pm1 p.model.pk)) (pm1 p.model.pk) db1 <;> rfl
    · rw [if_neg hb, if_neg hb]
      cases A.save c (cm.set c.model.pk (pm1 p.model.pk)) db1 <;> rfl
end

end Denorm
