import Verif.Lemmas.Flush
import Verif.Lemmas.TrackingInv
/-!
# The loops of flush
-/
namespace Denorm

theorem idxOf_split {l pre post : List Col} {c : Col} (hl : l = pre ++ c :: post) (hn : l.Nodup) : l.idxOf c = pre.length := by
  subst hl
  have : c ∉ pre := fun h => (List.nodup_append.1 hn).2.2 c h c (List.mem_cons_self ..) rfl
  rw [List.idxOf_append, if_neg this]
  simp

theorem idxOf_pre {l pre post : List Col} {c : Col} (hl : l = pre ++ post) (h : c ∈ pre) : l.idxOf c < pre.length := by
  subst hl
  rw [List.idxOf_append, if_pos h]
  exact List.idxOf_lt_length_of_mem h

theorem col_inj {l : List SaveField} (h : (l.map SaveField.col).Nodup) {f g : SaveField} (hf : f ∈ l) (hg : g ∈ l) (e : f.col = g.col) : f = g := by
  induction l with
  | nil => simp at hf
  | cons a l ih =>
    simp only [List.map_cons, List.nodup_cons] at h
    rcases List.mem_cons.1 hf with h1 | h1 <;> rcases List.mem_cons.1 hg with h2 | h2
    · rw [h1, h2]
    · exact absurd (List.mem_map.2 ⟨g, h2, by rw [← e, h1]⟩) h.1
    · exact absurd (List.mem_map.2 ⟨f, h1, by rw [e, h2]⟩) h.1
    · exact ih h.2 h1 h2

/-- What flush maintains for one callback field. -/
structure Good (A : App) (D : List Denorm) (om : OrmModel) (cb : Callback) (db : Db) : Prop where
  flushable : Flushable A D om cb db
  keys : KeysUnique A db
  keysOk : KeysOk cb db
  stale : StaleMarked cb db

section
variable {A : App} {D : List Denorm} {om : OrmModel} {cb : Callback} {db db' : Db}

theorem freshTracked (cb : Callback) : TrackedProp cb fun db r => cb.Fresh db r := by
  intro db db' r r' hown hpk hseen h
  unfold Callback.Fresh at h ⊢
  rw [← hown cb.field (by simp [Callback.ownCols]), h]
  simp only [Callback.value]
  congr 1
  · exact List.map_congr_left fun c hc => hown c (by simp [Callback.ownCols, hc])
  · exact List.map_congr_left fun d hd => hseen d hd

theorem staleMarked_iff {cb : Callback} {db : Db} :
    StaleMarked cb db ↔ ∀ r ∈ db.rows cb.model.table, Marked cb.model db r ∨ cb.Fresh db r := by
  constructor
  · intro h r hr
    by_cases hf : cb.Fresh db r
    · exact .inr hf
    · exact .inl (h r hr hf)
  · intro h r hr hf
    exact (h r hr).resolve_right hf

/-- A legal statement of a user keeps the markers right. -/
theorem staleMarked_exec (hE : Installed A.engine D) (hD : WellDeclared A.engine.backend D cb) (hN : NoReentry A.engine)
    {fuel : Nat} {s : Stmt} (he : A.engine.exec fuel s db = .ok db') (hL : LegalStmt A.engine cb db s) (hK : KeysOk cb db)
    (hS : StaleMarked cb db) : KeysOk cb db' ∧ StaleMarked cb db' := by
  have := track_exec (tracks_of_installed hE hD) hN (freshTracked cb) he hL hK (staleMarked_iff.1 hS)
  exact ⟨this.1, staleMarked_iff.2 this.2⟩

theorem saved_legal (hF : Flushable A D om cb db) {om' : OrmModel} (hom' : om' ∈ A.models) (mem : Row) (db0 : Db) :
    LegalStmt A.engine cb db0 (saveUpdate om' mem) := by
  intro p hp hpt x r
  have := hF.pks om' hom' p hp hpt
  exact if_neg this

/-- Saving the object of a marker. -/
theorem good_saveObject (hG : Good A D om cb db) {m : Mark} (h : A.saveObject m db = .ok db') :
    Good A D om cb db' ∧ (m.ct = cb.model.ct → ∀ r ∈ db'.rows cb.model.table, r cb.model.pk = m.oid → cb.Fresh db' r) := by
  have hF := hG.flushable
  simp only [App.saveObject, App.contentObject] at h
  cases hfind : A.models.find? (fun om => om.model.ct == m.ct) with
  | none => rw [hfind] at h; simp at h
  | some om' =>
    rw [hfind] at h
    simp only at h
    have hom' : om' ∈ A.models := List.mem_of_find?_eq_some hfind
    have hsame : m.ct = cb.model.ct → om' = om := by
      intro hct
      have hf := hF.found
      rw [← hct, hfind] at hf
      exact Option.some.inj hf
    cases hrow : (db.rows om'.model.table).find? (isRowOf om'.model m.oid) with
    | none =>
      rw [hrow] at h
      simp only [Except.ok.injEq] at h
      subst h
      refine ⟨hG, ?_⟩
      intro hct r hr hk
      have hom := hsame hct
      subst hom
      have hmod := hF.model
      rw [← hmod] at hr hk
      have := List.find?_eq_none.1 hrow r hr
      exact absurd (Val.sqlEq_iff.2 ⟨hk, (hG.keys _ hom').2 r hr⟩) this
    | some r =>
      rw [hrow] at h
      simp only at h
      cases hs : A.save om' r db with
      | error e => rw [hs] at h; simp at h
      | ok p =>
        rw [hs] at h
        simp only [Except.ok.injEq] at h
        subst h
        obtain ⟨mem, hpre, hS⟩ := saved_of_save hG.keys hom' (hF.safe.kept om' hom' om' hom' rfl) hrow hs
        have hT := staleMarked_exec hF.installed hF.declared hF.noReentry hS.exec (saved_legal hF hom' mem db) hG.keysOk hG.stale
        refine ⟨⟨flushable_saved hF hom' hS, keysUnique_saved hF.safe hom' hG.keys hS, hT.1, hT.2⟩, ?_⟩
        intro hct r' hr' hk
        have hom := hsame hct
        subst hom
        refine fresh_saved hF hG.keys hS (value_of_pre hF hS.plain hpre) r' hr' ?_
        rw [hk, ← hF.model]
        exact (find_again hrow).2.symm

theorem good_dropMarks (hG : Good A D om cb db) {m : Mark}
    (h : m.ct = cb.model.ct → ∀ r ∈ db.rows cb.model.table, r cb.model.pk = m.oid → cb.Fresh db r) :
    Good A D om cb (db.dropMarks m) := by
  have hF := hG.flushable
  have hrows : (db.dropMarks m).rows = db.rows := rfl
  have hfr : ∀ r, cb.Fresh (db.dropMarks m) r ↔ cb.Fresh db r := by
    intro r
    have hv : cb.value (db.dropMarks m) r = cb.value db r := by
      simp only [Callback.value, related_rows hrows]
    unfold Callback.Fresh
    rw [hv]
  refine ⟨{ hF with deps := fun d hd => ⟨(hF.deps d hd).triggers, ?_⟩ }, hG.keys, hG.keysOk, ?_⟩
  · rcases (hF.deps d hd).self with h1 | ⟨h1, h2, h3⟩
    · exact .inl h1
    · refine .inr ⟨h1, fun r hr o ho => h2 r hr o ?_, h3⟩
      rw [related_rows hrows] at ho
      exact ho
  · intro r hr hnf
    rw [hfr] at hnf
    have hm := hG.stale r hr hnf
    refine List.mem_filter.2 ⟨hm, ?_⟩
    simp only [ne_eq, decide_eq_true_eq]
    rintro rfl
    exact hnf (h rfl r hr rfl)

theorem good_flushOne (hG : Good A D om cb db) {m : Mark} (h : A.flushOne m db = .ok db') : Good A D om cb db' := by
  simp only [App.flushOne] at h
  cases hs : A.saveObject m db with
  | error e => rw [hs] at h; simp at h
  | ok db1 =>
    rw [hs] at h
    simp only [Except.ok.injEq] at h
    subst h
    obtain ⟨h1, h2⟩ := good_saveObject hG hs
    exact good_dropMarks h1 h2

theorem good_flushList : ∀ (ms : List Mark) {db db' : Db}, Good A D om cb db → A.flushList ms db = .ok db' → Good A D om cb db'
  | [], db, db', hG, h => by
    simp only [App.flushList, Except.ok.injEq] at h
    exact h ▸ hG
  | m :: ms, db, db', hG, h => by
    simp only [App.flushList] at h
    cases hs : A.flushOne m db with
    | error e => rw [hs] at h; simp at h
    | ok db1 =>
      rw [hs] at h
      exact good_flushList ms (good_flushOne hG hs) h

theorem good_flush : ∀ (n : Nat) {db db' : Db}, Good A D om cb db → A.flush n db = .ok (some db') →
    Good A D om cb db' ∧ db'.dirty = []
  | n, db, db', hG, h => by
    unfold App.flush at h
    split at h
    · rename_i hd
      simp only [Except.ok.injEq, Option.some.injEq] at h
      exact h ▸ ⟨hG, hd⟩
    · cases n with
      | zero => simp at h
      | succ n =>
        simp only at h
        cases hs : A.pass db with
        | error e => rw [hs] at h; simp at h
        | ok db1 =>
          rw [hs] at h
          exact good_flush n (good_flushList _ hG hs) h

end
end Denorm
