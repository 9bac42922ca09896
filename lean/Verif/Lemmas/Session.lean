import Verif.Spec.Session
import Verif.Lemmas.FlushRun
/-!
# flush() and other sessions, step by step
-/
namespace Denorm

/-! ## Statements append markers and do not look at them -/

section
variable {E : Engine}

theorem applyOp_withDirty (t : TableName) (op : RowOp) (db : Db) (l : List Mark) :
    applyOp E t op { db with dirty := l } = ({ (applyOp E t op db).1 with dirty := l }, (applyOp E t op db).2) := by
  cases op with
  | ins r => rfl
  | upd i σ =>
    simp only [applyOp]
    cases (db.rows t)[i]? <;> rfl
  | del w =>
    simp only [applyOp]
    cases (db.rows t).find? w <;> rfl

theorem applyOps_withDirty (t : TableName) : ∀ (ops : List RowOp) (db : Db) (l : List Mark),
    applyOps E t ops { db with dirty := l } = ({ (applyOps E t ops db).1 with dirty := l }, (applyOps E t ops db).2) ∧
      (applyOps E t ops db).1.dirty = db.dirty
  | [], _, _ => ⟨rfl, rfl⟩
  | op :: ops, db, l => by
    obtain ⟨h1, h2⟩ := applyOps_withDirty t ops (applyOp E t op db).1 l
    simp only [applyOps, applyOp_withDirty, h1, h2, applyOp_dirty, and_self]

theorem step_withDirty (it : Item) {db db1 : Db} {W : List Item} (h : E.step it db = .ok (W, db1)) :
    ∃ new, db1.dirty = db.dirty ++ new ∧ ∀ l, E.step it { db with dirty := l } = .ok (W, { db1 with dirty := l ++ new }) := by
  cases it with
  | write fr t ops =>
    simp only [Engine.step, Except.ok.injEq, Prod.mk.injEq] at h
    obtain ⟨rfl, rfl⟩ := h
    refine ⟨[], by rw [List.append_nil, (applyOps_withDirty t ops db db.dirty).2], fun l => ?_⟩
    simp only [Engine.step, (applyOps_withDirty t ops db l).1, List.append_nil]
  | act fr ch a =>
    cases a with
    | markValues ct s c q =>
      simp only [Engine.step, Except.ok.injEq, Prod.mk.injEq] at h
      obtain ⟨rfl, rfl⟩ := h
      exact ⟨_, rfl, fun l => rfl⟩
    | markSelect ct sel t k s c q =>
      simp only [Engine.step, Except.ok.injEq, Prod.mk.injEq] at h
      obtain ⟨rfl, rfl⟩ := h
      exact ⟨_, rfl, fun l => rfl⟩
    | update u =>
      simp only [Engine.step] at h
      split at h
      · simp at h
      · rename_i hb
        simp only [Except.ok.injEq, Prod.mk.injEq] at h
        obtain ⟨rfl, rfl⟩ := h
        refine ⟨[], (List.append_nil _).symm, fun l => ?_⟩
        simp only [Engine.step, if_neg hb, List.append_nil]
        rfl

theorem drain_withDirty : ∀ (n : Nat) (W : List Item) {db db' : Db}, E.drain n W db = .ok db' →
    ∃ new, db'.dirty = db.dirty ++ new ∧ ∀ l, E.drain n W { db with dirty := l } = .ok { db' with dirty := l ++ new }
  | n, [], db, db', h => by
    simp only [Engine.drain, Except.ok.injEq] at h
    subst h
    exact ⟨[], (List.append_nil _).symm, fun l => by simp [Engine.drain]⟩
  | 0, _ :: _, _, _, h => by simp [Engine.drain] at h
  | n + 1, it :: W, db, db', h => by
    simp only [Engine.drain] at h
    cases hs : E.step it db with
    | error e => rw [hs] at h; simp at h
    | ok p =>
      obtain ⟨W1, db1⟩ := p
      rw [hs] at h
      simp only at h
      obtain ⟨new1, h1, h2⟩ := step_withDirty it hs
      obtain ⟨new2, h3, h4⟩ := drain_withDirty n _ h
      refine ⟨new1 ++ new2, by rw [h3, h1, List.append_assoc], fun l => ?_⟩
      simp only [Engine.drain, h2]
      rw [h4, List.append_assoc]

/-- A statement appends markers; which ones, and everything else, does not depend on the markers there are. -/
theorem exec_withDirty {fuel : Nat} {s : Stmt} {db db' : Db} (h : E.exec fuel s db = .ok db') :
    ∃ new, db'.dirty = db.dirty ++ new ∧ ∀ l, E.exec fuel s { db with dirty := l } = .ok { db' with dirty := l ++ new } := by
  have hs : ∀ l, E.start s { db with dirty := l } = E.start s db := by
    intro l
    cases s <;> rfl
  obtain ⟨new, h1, h2⟩ := drain_withDirty _ _ h
  exact ⟨new, h1, fun l => by rw [Engine.exec, hs]; exact h2 l⟩

theorem legal_withDirty {cb : Callback} {db : Db} {s : Stmt} (h : LegalStmt E cb db s) (l : List Mark) :
    LegalStmt E cb { db with dirty := l } s := by
  cases s <;> exact h

end

theorem value_withDirty (cb : Callback) (db : Db) (l : List Mark) (r : Row) : cb.value { db with dirty := l } r = cb.value db r := by
  simp only [Callback.value, related_rows (db' := db) (db := { db with dirty := l }) rfl]

section
variable {A : App} {D : List Denorm} {om : OrmModel} {cb : Callback} {db db' : Db}

/-- What a statement does not mark keeps a tracked property. -/
theorem unmarked_keeps (hE : Installed A.engine D) (hD : WellDeclared A.engine.backend D cb) (hN : NoReentry A.engine) {fuel : Nat} {s : Stmt}
    (he : A.engine.exec fuel s db = .ok db') (hL : LegalStmt A.engine cb db s) (hK : KeysOk cb db) {k : Val}
    (hm : db'.dirty.count ⟨cb.model.ct, k⟩ = db.dirty.count ⟨cb.model.ct, k⟩) {C : Db → Row → Prop} (hC : TrackedProp cb C)
    (h : ∀ r ∈ db.rows cb.model.table, r cb.model.pk = k → C { db with dirty := [] } r) :
    ∃ new, ∀ r ∈ db'.rows cb.model.table, r cb.model.pk = k → C { db' with dirty := new } r := by
  obtain ⟨new, h1, h2⟩ := exec_withDirty he
  have hnew : (⟨cb.model.ct, k⟩ : Mark) ∉ new := by
    rw [h1, List.count_append] at hm
    exact List.count_eq_zero.1 (by omega)
  have he0 := h2 []
  rw [List.nil_append] at he0
  have hC' : TrackedProp cb fun db r => r cb.model.pk = k → C db r := by
    intro db db' r r' hown hpk hseen h hk
    exact hC db db' r r' hown hpk hseen (h (hpk.trans hk))
  obtain ⟨-, h3⟩ := track_exec (tracks_of_installed hE hD) hN hC' he0 (legal_withDirty hL []) hK fun r hr => .inr (h r hr)
  refine ⟨new, fun r hr hk => (h3 r hr).resolve_left (fun hmk => hnew ?_) hk⟩
  unfold Marked at hmk
  rw [hk] at hmk
  exact hmk

/-- An instance that another session leaves alone stays up to date. -/
theorem fresh_kept (hE : Installed A.engine D) (hD : WellDeclared A.engine.backend D cb) (hN : NoReentry A.engine) {fuel : Nat} {s : Stmt}
    (he : A.engine.exec fuel s db = .ok db') (hL : LegalStmt A.engine cb db s) (hK : KeysOk cb db) {k : Val}
    (hm : db'.dirty.count ⟨cb.model.ct, k⟩ = db.dirty.count ⟨cb.model.ct, k⟩)
    (h : ∀ r ∈ db.rows cb.model.table, r cb.model.pk = k → cb.Fresh db r) :
    ∀ r ∈ db'.rows cb.model.table, r cb.model.pk = k → cb.Fresh db' r := by
  obtain ⟨new, h1⟩ := unmarked_keeps hE hD hN he hL hK hm (freshTracked cb) (fun r hr hk => by
    unfold Callback.Fresh
    rw [value_withDirty]
    exact h r hr hk)
  intro r hr hk
  have := h1 r hr hk
  unfold Callback.Fresh at this
  rwa [value_withDirty] at this

theorem row_unique (hu : KeysUnique A db) (hom : om ∈ A.models) {r r' : Row} (h1 : r ∈ db.rows om.model.table)
    (h2 : r' ∈ db.rows om.model.table) (h3 : r om.model.pk = r' om.model.pk) : r = r' := by
  have hun := (hu om hom).1
  obtain ⟨i, hi⟩ := List.getElem?_of_mem h1
  obtain ⟨j, hj⟩ := List.getElem?_of_mem h2
  obtain ⟨hil, hie⟩ := List.getElem?_eq_some_iff.1 hi
  obtain ⟨hjl, hje⟩ := List.getElem?_eq_some_iff.1 hj
  have := (List.getElem_inj (h₀ := by simpa using hil) (h₁ := by simpa using hjl) hun).1 (by simp [hie, hje, h3])
  subst this
  rw [← hie, ← hje]

/-- An instance that another session leaves alone is still related to rows that look the same. -/
theorem seen_kept (hF : Flushable A D om cb db) (hu : KeysUnique A db) {fuel : Nat} {s : Stmt}
    (he : A.engine.exec fuel s db = .ok db') (hL : LegalStmt A.engine cb db s) (hK : KeysOk cb db) {r : Row}
    (hm : db'.dirty.count ⟨cb.model.ct, r cb.model.pk⟩ = db.dirty.count ⟨cb.model.ct, r cb.model.pk⟩)
    (hr : r ∈ db.rows cb.model.table) (hr' : r ∈ db'.rows cb.model.table) :
    ∀ d ∈ cb.deps, seen d.reads (relatedRows d.dep db r) = seen d.reads (relatedRows d.dep db' r) := by
  have hC : TrackedProp cb fun db1 r1 => ∀ d ∈ cb.deps, seen d.reads (relatedRows d.dep db r) = seen d.reads (relatedRows d.dep db1 r1) :=
    fun _ _ _ _ _ _ hseen h d hd => (h d hd).trans (hseen d hd)
  obtain ⟨new, h1⟩ := unmarked_keeps hF.installed hF.declared hF.noReentry he hL hK hm hC (fun r1 hr1 hk d hd => by
    have : r1 = r := by
      have hmod := hF.model
      rw [← hmod] at hr hr1 hk
      exact row_unique hu (mem_models hF) hr1 hr hk
    rw [this, related_rows (db := { db with dirty := [] }) (db' := db) rfl])
  intro d hd
  rw [h1 r hr' rfl d hd, related_rows (db := { db' with dirty := new }) (db' := db') rfl]

/-! ## The invariant -/

/-- What is known of the instance that flush() is working on. -/
def PcOk (A : App) (om : OrmModel) (cb : Callback) : Pc → Db → Prop
  | .saving m om' mem fs _, db => A.models.find? (fun o => o.model.ct == m.ct) = some om' ∧ ∃ pre r, om'.saved = pre ++ fs ∧
      r ∈ db.rows om'.model.table ∧ r om'.model.pk = m.oid ∧ mem om'.model.pk = m.oid ∧ (∀ c, c ∉ om'.denormCols → mem c = r c) ∧
      (om' = om → ⟨cb.field, .callback cb⟩ ∈ pre → mem cb.field = cb.value db mem)
  | .inserting .., _ => False
  | .deleting m _, db => m.ct = cb.model.ct → ∀ r ∈ db.rows cb.model.table, r cb.model.pk = m.oid → cb.Fresh db r
  | _, _ => True

theorem value_congr (hD : WellDeclared A.engine.backend D cb) {r r' : Row} (hpk : r cb.model.pk = r' cb.model.pk)
    (hown : ∀ c ∈ cb.own ++ cb.deps.flatMap (fun d => d.dep.ownKeys), r c = r' c) : cb.value db r = cb.value db r' := by
  simp only [Callback.value]
  rw [List.map_congr_left fun c hc => hown c (List.mem_append_left _ hc)]
  congr 1
  refine List.map_congr_left fun d hd => ?_
  rw [relatedRows_congr (notBackGeneric (hD.watched d hd)) (by rw [hD.this d hd]; exact hpk) fun c hc =>
    hown c (List.mem_append_right _ (List.mem_flatMap.2 ⟨d, hd, hc⟩))]

theorem found_ct {m : Mark} {o : OrmModel} (h : A.models.find? (fun o => o.model.ct == m.ct) = some o) : o.model.ct = m.ct := by
  simpa using List.find?_some (p := fun o : OrmModel => o.model.ct == m.ct) h

/-- Another session's statement. -/
theorem pcOk_other (hP : cb.KeysPlain om) (hG : Good A D om cb db) {pc : Pc} {s : Stmt} (he : A.exec s db = .ok db')
    (hL : LegalStmt A.engine cb db s) (hl : ∀ m, pc.busy = some m → LeavesAlone A m db db') (h : PcOk A om cb pc db) :
    PcOk A om cb pc db' := by
  have hF := hG.flushable
  have he' : A.engine.exec A.fuel s db = .ok db' := by
    simp only [App.exec] at he
    cases h : A.engine.exec A.fuel s db with
    | error e => rw [h] at he; simp at he
    | ok x => rw [h] at he; simpa using he
  cases pc with
  | saving m om' mem fs ms =>
    obtain ⟨hfind, pre, r, hsp, hr, hrk, hmk, hpl, hval⟩ := h
    have hla := hl m rfl
    have hom' : om' ∈ A.models := List.mem_of_find?_eq_some hfind
    have hr' := (hla.row om' hom' (found_ct hfind) r hrk).1 hr
    refine ⟨hfind, pre, r, hsp, hr', hrk, hmk, hpl, ?_⟩
    rintro rfl hin
    rw [hval rfl hin]
    have hmod := hF.model
    have hct : m.ct = cb.model.ct := by rw [← found_ct hfind, hmod]
    have hmark : db'.dirty.count ⟨cb.model.ct, r cb.model.pk⟩ = db.dirty.count ⟨cb.model.ct, r cb.model.pk⟩ := by
      have := hla.mark
      rw [← hmod, hrk, hmod, ← hct]
      exact this
    have hseen := seen_kept hF hG.keys he' hL hG.keysOk hmark (hmod ▸ hr) (hmod ▸ hr')
    simp only [Callback.value]
    congr 1
    refine List.map_congr_left fun d hd => ?_
    have hthis : d.dep.this = om'.model := (hF.declared.this d hd).trans hmod.symm
    have hc : ∀ x : Db, relatedRows d.dep x mem = relatedRows d.dep x r := fun x =>
      relatedRows_congr (notBackGeneric (hF.declared.watched d hd)) (by rw [hthis, hmk, hrk]) fun c hc => hpl c (hP d hd c hc)
    rw [hc, hc]
    exact hseen d hd
  | inserting m om' mem fs ms => exact h
  | deleting m ms =>
    intro hct
    have := (hl m rfl).mark
    rw [show m = ⟨cb.model.ct, m.oid⟩ from hct ▸ rfl] at this
    exact fresh_kept hF.installed hF.declared hF.noReentry he' hL hG.keysOk this (h hct)
  | _ => trivial

/-- A step of flush(). -/
theorem good_flushStep (hG : Good A D om cb db) {pc : Pc} (h : PcOk A om cb pc db) :
    Good A D om cb (A.flushStep pc db).2 ∧ PcOk A om cb (A.flushStep pc db).1 (A.flushStep pc db).2 := by
  have hF := hG.flushable
  cases pc with
  | check =>
    simp only [App.flushStep]
    split <;> exact ⟨hG, trivial⟩
  | fetch => exact ⟨hG, trivial⟩
  | done => exact ⟨hG, trivial⟩
  | failed e => exact ⟨hG, trivial⟩
  | loop ms =>
    cases ms with
    | nil => exact ⟨hG, trivial⟩
    | cons m ms =>
      simp only [App.flushStep, App.contentObject]
      cases hfind : A.models.find? (fun o => o.model.ct == m.ct) with
      | none => exact ⟨hG, trivial⟩
      | some om' =>
        have hom' : om' ∈ A.models := List.mem_of_find?_eq_some hfind
        cases hrow : (db.rows om'.model.table).find? (isRowOf om'.model m.oid) with
        | none =>
          simp only [hrow]
          refine ⟨hG, fun hct r hr hk => ?_⟩
          have hom : om' = om := by
            have hf := hF.found
            rw [← hct, hfind] at hf
            exact Option.some.inj hf
          subst hom
          have hmod := hF.model
          rw [← hmod] at hr hk
          exact absurd (Val.sqlEq_iff.2 ⟨hk, (hG.keys _ hom').2 r hr⟩) (List.find?_eq_none.1 hrow r hr)
        | some r =>
          simp only [hrow]
          have hk := (find_again hrow).2
          exact ⟨hG, hfind, [], r, rfl, List.mem_of_find?_eq_some hrow, hk, hk, fun _ _ => rfl, fun _ hin => by simp at hin⟩
  | inserting m om' mem fs ms => exact h.elim
  | deleting m ms => exact ⟨good_dropMarks hG h, trivial⟩
  | saving m om' mem fs ms =>
    obtain ⟨hfind, pre, r, hsp, hr, hrk, hmk, hpl, hval⟩ := h
    have hom' : om' ∈ A.models := List.mem_of_find?_eq_some hfind
    have hpkc : om'.model.pk ∉ om'.cols := hF.safe.kept om' hom' om' hom' rfl
    have hnull : m.oid ≠ .null := hrk ▸ (hG.keys om' hom').2 r hr
    cases fs with
    | cons f fs =>
      have hfin : f ∈ om'.saved := by rw [hsp]; exact List.mem_append_right _ (List.mem_cons_self ..)
      have hfpk : f.col ≠ om'.model.pk := fun e => hpkc (List.mem_map.2 ⟨f, hfin, e⟩)
      cases hv : f.preSave A om'.model db false mem with
      | error e =>
        simp only [App.flushStep, hv]
        exact ⟨hG, trivial⟩
      | ok v =>
        simp only [App.flushStep, hv]
        -- a field that is not computed keeps its value
        have hplain : f.kind.computed = false → f.col ∉ om'.denormCols → v = mem f.col := by
          intro hk hcol
          simp only [SaveField.preSave] at hv
          cases hkind : f.kind with
          | plain => rw [hkind] at hv; simpa using hv.symm
          | callback cb' => rw [hkind] at hk; simp [Kind.computed] at hk
          | cacheKey => rw [hkind] at hk; simp [Kind.computed] at hk
          | aggregate =>
            rw [hkind] at hv
            have : (db.rows om'.model.table).find? (fun r' => Val.sqlEq (r' om'.model.pk) (mem om'.model.pk)) = some r := by
              cases hf : (db.rows om'.model.table).find? (fun r' => Val.sqlEq (r' om'.model.pk) (mem om'.model.pk)) with
              | none =>
                exact absurd (Val.sqlEq_iff.2 ⟨by rw [hrk, hmk], by rw [hrk]; exact hnull⟩) (List.find?_eq_none.1 hf r hr)
              | some r' =>
                have h1 := List.mem_of_find?_eq_some hf
                have h2 := (Val.sqlEq_iff.1 (List.find?_some (p := fun r' : Row => Val.sqlEq (r' om'.model.pk) (mem om'.model.pk)) hf)).1
                rw [row_unique hG.keys hom' h1 hr (by rw [h2, hmk, hrk])]
            simp only [Bool.false_eq_true, if_false, this, Except.ok.injEq] at hv
            rw [← hv, hpl _ hcol]
        refine ⟨hG, hfind, pre ++ [f], r, by rw [hsp, List.append_assoc]; rfl, hr, hrk, ?_, ?_, ?_⟩
        · simp only [Row.set]
          rw [if_neg (Ne.symm hfpk)]
          exact hmk
        · intro c hc
          simp only [Row.set]
          split
          · rename_i hcf
            subst hcf
            have hk : f.kind.computed = false := by
              cases hk : f.kind.computed with
              | false => rfl
              | true => exact absurd (List.mem_map.2 ⟨f, List.mem_filter.2 ⟨hfin, hk⟩, rfl⟩) hc
            rw [hplain hk hc, hpl _ hc]
          · exact hpl c hc
        · rintro rfl hin
          have hmod := hF.model
          have hnd := hF.cols
          obtain ⟨pre0, post0, hsp0, hord⟩ := hF.order
          have hownk : ∀ c ∈ cb.own ++ cb.deps.flatMap (fun d => d.dep.ownKeys), c ≠ cb.field := fun c hc => (hord c hc).1
          rcases List.mem_append.1 hin with hin | hin
          · -- computed before
            have hne : f.col ≠ cb.field := by
              intro e
              rw [OrmModel.cols, hsp, List.map_append] at hnd
              exact (List.nodup_append.1 hnd).2.2 cb.field (List.mem_map.2 ⟨_, hin, rfl⟩) f.col (by simp) e.symm
            have h0 := hval rfl hin
            have hmem' : (mem.set f.col v) cb.field = mem cb.field := by
              simp only [Row.set]
              rw [if_neg (Ne.symm hne)]
            rw [hmem', h0]
            by_cases hk : f.kind.computed = true
            · -- f comes after the field
              have hpost : f ∈ post0 := by
                have hfs : f ∈ f :: fs := List.mem_cons_self ..
                have : f ∈ pre0 ++ ⟨cb.field, .callback cb⟩ :: post0 := hsp0 ▸ hfin
                rcases List.mem_append.1 this with h1 | h1
                · exfalso
                  have i1 : om'.cols.idxOf cb.field < om'.cols.idxOf f.col := by
                    rw [idxOf_split (pre := pre.map SaveField.col) (post := fs.map SaveField.col) (c := f.col) (by simp [OrmModel.cols, hsp]) hnd]
                    exact idxOf_pre (post := (f :: fs).map SaveField.col) (by simp [OrmModel.cols, hsp]) (List.mem_map.2 ⟨_, hin, rfl⟩)
                  have i2 : om'.cols.idxOf f.col < om'.cols.idxOf cb.field := by
                    rw [idxOf_split (pre := pre0.map SaveField.col) (post := post0.map SaveField.col) (c := cb.field)
                      (by simp [OrmModel.cols, hsp0]) hnd]
                    exact idxOf_pre (post := cb.field :: post0.map SaveField.col) (by simp [OrmModel.cols, hsp0])
                      (List.mem_map.2 ⟨_, h1, rfl⟩)
                  omega
                · rcases List.mem_cons.1 h1 with h1 | h1
                  · exact absurd (by rw [h1]) hne
                  · exact h1
              refine value_congr hF.declared ?_ ?_
              · simp only [Row.set]
                rw [if_neg (by rw [← hmod]; exact Ne.symm hfpk)]
              · intro c hc
                simp only [Row.set]
                rw [if_neg (Ne.symm ((hord c hc).2 f hpost hk))]
            · have hk' : f.kind.computed = false := by simpa using hk
              have hcol : f.col ∉ om'.denormCols := by
                intro hd
                obtain ⟨g, hg, hge⟩ := List.mem_map.1 hd
                obtain ⟨hg, hgc⟩ := List.mem_filter.1 hg
                have : g = f := col_inj hnd hg hfin hge
                rw [this] at hgc
                exact hk hgc
              have : mem.set f.col v = mem := by
                funext c
                simp only [Row.set]
                split
                · rename_i e
                  rw [e, hplain hk' hcol]
                · rfl
              rw [this]
          · -- computed just now
            simp only [List.mem_singleton] at hin
            subst hin
            simp only [SaveField.preSave, Except.ok.injEq] at hv
            have h1 : (mem.set cb.field v) cb.field = v := by simp [Row.set]
            simp only
            rw [h1, ← hv]
            refine value_congr hF.declared ?_ ?_
            · simp only [Row.set]
              rw [if_neg (by rw [← hmod]; exact Ne.symm hfpk)]
            · intro c hc
              simp only [Row.set]
              rw [if_neg (hownk c hc)]
    | nil =>
      have hany : (db.rows om'.model.table).any (isRowOf om'.model (mem om'.model.pk)) = true :=
        List.any_eq_true.2 ⟨r, hr, Val.sqlEq_iff.2 ⟨by rw [hrk, hmk], by rw [hrk]; exact hnull⟩⟩
      simp only [App.flushStep, hany, if_true, App.exec]
      cases he : A.engine.exec A.fuel (saveUpdate om' mem) db with
      | error e => exact ⟨hG, trivial⟩
      | ok db1 =>
        have hS : Saved A om' r mem db db1 := saved_of_exec hG.keys hom' hr (by rw [hmk, hrk]) hpl he
        have hT := staleMarked_exec hF.installed hF.declared hF.noReentry he (saved_legal hF hom' mem db) hG.keysOk hG.stale
        refine ⟨⟨flushable_saved hF hom' hS, keysUnique_saved hF.safe hom' hG.keys hS, hT.1, hT.2⟩, ?_⟩
        intro hct r' hr' hk
        have hom : om' = om := by
          have hf := hF.found
          rw [← hct, hfind] at hf
          exact Option.some.inj hf
        subst hom
        have hin : ⟨cb.field, .callback cb⟩ ∈ pre := by
          obtain ⟨pre0, post0, hsp0, _⟩ := hF.order
          rw [List.append_nil] at hsp
          rw [← hsp, hsp0]
          simp
        refine fresh_saved hF hG.keys hS (hval rfl hin) r' hr' ?_
        rw [hk, ← hF.model, hrk]

end

end Denorm
