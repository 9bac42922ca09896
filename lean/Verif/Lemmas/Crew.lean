import Verif.Spec.Crew
import Verif.Lemmas.Session
import Verif.Lemmas.Transparent
/-!
# Several flush() at the same time, step by step
-/
namespace Denorm

/-- The columns that the triggers of `D` write. -/
def Written (D : List Denorm) (t : TableName) (c : Col) : Prop := ∃ dn ∈ D, (t, c) ∈ dn.writes

/-- What saving the instance with key `k` of `om` does to a row of table `t`, if `mem` need not be what is stored. -/
structure SaveRel (D : List Denorm) (om : OrmModel) (mem : Row) (t : TableName) (a b : Row) : Prop where
  other : (t = om.model.table → a om.model.pk ≠ mem om.model.pk) → ∀ c, ¬ Written D t c → b c = a c
  saved : t = om.model.table → a om.model.pk = mem om.model.pk → ∀ c, ¬ Written D t c → b c = savedRow om mem a c

section
variable {A : App} {D : List Denorm} {om om' : OrmModel} {cb : Callback} {db db' : Db}

/-- The UPDATE of save(), whatever the attributes are. -/
theorem save_rows (hE : Installed A.engine D) (hu : ((db.rows om.model.table).map fun r => r om.model.pk).Nodup) {mem r : Row}
    (hr : r ∈ db.rows om.model.table) (hk : r om.model.pk = mem om.model.pk) (hn : r om.model.pk ≠ .null)
    (he : A.engine.exec A.fuel (saveUpdate om mem) db = .ok db') (t : TableName) : Pw (SaveRel D om mem t) (db.rows t) (db'.rows t) := by
  obtain ⟨i, hi⟩ := List.getElem?_of_mem hr
  have hT : targetsOf (db.rows om.model.table) (isRowOf om.model (mem om.model.pk)) = [i] := targetsOf_unique hu hi hk (hk ▸ hn)
  have hstart : A.engine.start (saveUpdate om mem) db = [.write .top om.model.table [.upd i fun _ r => savedRow om mem r]] := by
    simp only [Engine.start, saveUpdate, Stmt.ops, Stmt.table, hT]
    cases A.engine.backend <;> rfl
  have hM : ∀ t c, Managed A.engine t c → Written D t c := fun t c h => managed_writes hE h
  rw [Engine.exec, hstart] at he
  cases hf : A.fuel with
  | zero => rw [hf] at he; simp [Engine.drain] at he
  | succ n =>
    rw [hf] at he
    simp only [Engine.drain, Engine.step, applyOps, applyOp, hi, List.append_nil] at he
    have h3 : SameOutside (Written D)
        { db.setRows om.model.table ((db.rows om.model.table).set i (savedRow om mem r)) with draws := db.draws + 1 } db' := by
      refine ((confinedInv (closed_managed hM) _).drain _ _ _ _ he ⟨SameOutside.refl _ _, ?_⟩).1
      simp only [List.flatMap_cons, List.flatMap_nil, List.append_nil]
      exact within_all_fired hM
    have h3 := h3 t
    by_cases ht : t = om.model.table
    · subst ht
      simp only [Db.setRows, if_true] at h3
      refine (Pw.set_key (x := savedRow om mem r) hu hi rfl).trans ?_ h3
      intro a b c ⟨hab1, hab2⟩ hbc
      refine ⟨fun hne col hcol => ?_, fun _ hak col hcol => ?_⟩
      · rw [hbc col hcol, hab1 (by rw [hk]; exact hne rfl)]
      · obtain ⟨h4, h5⟩ := hab2 (by rw [hk]; exact hak)
        rw [hbc col hcol, h4, h5]
    · simp only [Db.setRows, if_neg ht] at h3
      exact h3.imp fun a _ b _ hab => ⟨fun _ c hc => hab c hc, fun h => absurd h ht⟩

/-- Rows agree in plain data. -/
def StillRel (A : App) (D : List Denorm) (t : TableName) (a b : Row) : Prop := ∀ c, Still A D t c → b c = a c

theorem still_saved {mem : Row} {t : TableName} {a b : Row} (h : SaveRel D om' mem t a b)
    (hmem : t = om'.model.table → a om'.model.pk = mem om'.model.pk → ∀ c, Still A D om'.model.table c → mem c = a c) : StillRel A D t a b := by
  intro c hc
  have hw : ¬ Written D t c := fun ⟨dn, hdn, h⟩ => hc.1 dn hdn h
  by_cases hx : t = om'.model.table ∧ a om'.model.pk = mem om'.model.pk
  · rw [h.saved hx.1 hx.2 c hw]
    simp only [savedRow]
    split
    · exact hmem hx.1 hx.2 c (hx.1 ▸ hc)
    · rfl
  · exact h.other (fun ht hk => hx ⟨ht, hk⟩) c hw

theorem mem_inputs_own {c : Col} (h : c ∈ cb.own ++ cb.deps.flatMap fun d => d.dep.ownKeys) : (cb.model.table, c) ∈ cb.inputs :=
  List.mem_append_left _ (List.mem_map.2 ⟨c, h, rfl⟩)

theorem mem_inputs_sees {d : DepRead} (hd : d ∈ cb.deps) {p : TableName × Col} (h : p ∈ d.sees) : p ∈ cb.inputs :=
  List.mem_append_right _ (List.mem_flatMap.2 ⟨d, hd, h⟩)

/-- The value of a field that is computed from plain data. -/
theorem value_still (hU : Unchained A D om cb) (hrows : ∀ t, Pw (StillRel A D t) (db.rows t) (db'.rows t)) {r r' : Row}
    (hr : StillRel A D cb.model.table r r') : cb.value db' r' = cb.value db r := by
  have hown : ∀ c ∈ cb.own ++ cb.deps.flatMap (fun d => d.dep.ownKeys), r' c = r c := fun c hc => hr c (hU.inputs _ (mem_inputs_own hc))
  have hpk : r' cb.model.pk = r cb.model.pk := hr _ (hU.model ▸ hU.keys om (List.mem_of_find?_eq_some hU.found))
  simp only [Callback.value]
  rw [List.map_congr_left fun c hc => hown c (List.mem_append_left _ hc)]
  congr 1
  refine List.map_congr_left fun d hd => ?_
  refine (seen_related (R := StillRel A D) (notBackGeneric (hU.declared.watched d hd)) ?_ ?_ hrows ?_ ?_).symm
  · rw [hU.declared.this d hd]; exact hpk.symm
  · exact fun c hc => (hown c (List.mem_append_right _ (List.mem_flatMap.2 ⟨d, hd, hc⟩))).symm
  · exact fun p hp a b hab => hab _ (hU.inputs p (mem_inputs_sees hd (List.mem_append_left _ hp)))
  · exact fun a b hab _ c hc => hab _ (hU.inputs _ (mem_inputs_sees hd (List.mem_append_right _ (List.mem_map.2 ⟨c, hc, rfl⟩))))

/-- What all calls maintain. -/
structure Sound (A : App) (cb : Callback) (db : Db) : Prop where
  keys : KeysUnique A db
  keysOk : KeysOk cb db
  stale : StaleMarked cb db

/-- What is known of a call of flush(). -/
def CallOk (A : App) (D : List Denorm) (om : OrmModel) (cb : Callback) : Pc → Db → Prop
  | .saving m om' mem fs _, db => A.models.find? (fun o => o.model.ct == m.ct) = some om' ∧ mem om'.model.pk = m.oid ∧
      (∃ r ∈ db.rows om'.model.table, r om'.model.pk = m.oid ∧ ∀ c, Still A D om'.model.table c → mem c = r c) ∧
      ∃ pre, om'.saved = pre ++ fs ∧ (om' = om → ⟨cb.field, .callback cb⟩ ∈ pre → mem cb.field = cb.value db mem)
  | .inserting .., _ => False
  | .deleting m _, db => m.ct = cb.model.ct → ∀ r ∈ db.rows cb.model.table, r cb.model.pk = m.oid → cb.Fresh db r
  | _, _ => True

/-- The database has changed in computed columns only, and up-to-date instances are still so. -/
structure Moved (A : App) (D : List Denorm) (cb : Callback) (db db' : Db) : Prop where
  rows : ∀ t, Pw (StillRel A D t) (db.rows t) (db'.rows t)
  fresh : Pw (fun a b => StillRel A D cb.model.table a b ∧ (cb.Fresh db a → cb.Fresh db' b)) (db.rows cb.model.table) (db'.rows cb.model.table)

theorem Moved.of_rows (h : db'.rows = db.rows) : Moved A D cb db db' := by
  refine ⟨fun t => by rw [h]; exact Pw.refl (fun _ _ _ => rfl) _, ?_⟩
  rw [h]
  refine Pw.refl (fun r => ⟨fun _ _ => rfl, fun hf => ?_⟩) _
  unfold Callback.Fresh Callback.value at hf ⊢
  simp only [related_rows h]
  exact hf

theorem callOk_moved (hU : Unchained A D om cb) (hM : Moved A D cb db db') {pc : Pc} (h : CallOk A D om cb pc db) :
    CallOk A D om cb pc db' := by
  cases pc with
  | saving m om' mem fs ms =>
    obtain ⟨hfind, hk, ⟨r, hr, hrk, hst⟩, pre, hsp, hval⟩ := h
    have hom' : om' ∈ A.models := List.mem_of_find?_eq_some hfind
    obtain ⟨r', hr', hrr⟩ := (hM.rows om'.model.table).left hr
    refine ⟨hfind, hk, ⟨r', hr', ?_, fun c hc => ?_⟩, pre, hsp, fun h1 h2 => ?_⟩
    · rw [hrr _ (hU.keys om' hom'), hrk]
    · rw [hrr c hc, hst c hc]
    · rw [hval h1 h2, value_still hU hM.rows fun _ _ => rfl]
  | inserting => exact h
  | deleting m ms =>
    intro hct r' hr' hk
    obtain ⟨r, hr, hrr⟩ := hM.fresh.right hr'
    refine hrr.2 (h hct r hr ?_)
    rw [← hk, hrr.1 _ (hU.model ▸ hU.keys om (List.mem_of_find?_eq_some hU.found))]
  | _ => trivial

theorem sound_dropMarks (hS : Sound A cb db) {m : Mark}
    (h : m.ct = cb.model.ct → ∀ r ∈ db.rows cb.model.table, r cb.model.pk = m.oid → cb.Fresh db r) : Sound A cb (db.dropMarks m) := by
  have hrows : (db.dropMarks m).rows = db.rows := rfl
  refine ⟨hS.keys, hS.keysOk, fun r hr hnf => ?_⟩
  have hv : cb.value (db.dropMarks m) r = cb.value db r := by
    simp only [Callback.value, related_rows hrows]
  unfold Callback.Fresh at hnf
  rw [hv] at hnf
  refine List.mem_filter.2 ⟨hS.stale r hr hnf, ?_⟩
  simp only [ne_eq, decide_eq_true_eq]
  rintro rfl
  exact hnf (h rfl r hr rfl)

/-- One step of one call. -/
theorem sound_flushStep (hU : Unchained A D om cb) (hS : Sound A cb db) {pc : Pc} (h : CallOk A D om cb pc db) :
    Sound A cb (A.flushStep pc db).2 ∧ CallOk A D om cb (A.flushStep pc db).1 (A.flushStep pc db).2 ∧
      Moved A D cb db (A.flushStep pc db).2 := by
  have hid : Moved A D cb db db := .of_rows rfl
  cases pc with
  | check =>
    simp only [App.flushStep]
    split <;> exact ⟨hS, trivial, hid⟩
  | fetch => exact ⟨hS, trivial, hid⟩
  | done => exact ⟨hS, trivial, hid⟩
  | failed e => exact ⟨hS, trivial, hid⟩
  | loop ms =>
    cases ms with
    | nil => exact ⟨hS, trivial, hid⟩
    | cons m ms =>
      simp only [App.flushStep, App.contentObject]
      cases hfind : A.models.find? (fun o => o.model.ct == m.ct) with
      | none => exact ⟨hS, trivial, hid⟩
      | some om' =>
        have hom' : om' ∈ A.models := List.mem_of_find?_eq_some hfind
        cases hrow : (db.rows om'.model.table).find? (isRowOf om'.model m.oid) with
        | none =>
          simp only [hrow]
          refine ⟨hS, fun hct r hr hk => ?_, hid⟩
          have hom : om' = om := by
            have hf := hU.found
            rw [← hct, hfind] at hf
            exact Option.some.inj hf
          subst hom
          have hmod := hU.model
          rw [← hmod] at hr hk
          exact absurd (Val.sqlEq_iff.2 ⟨hk, (hS.keys _ hom').2 r hr⟩) (List.find?_eq_none.1 hrow r hr)
        | some r =>
          simp only [hrow]
          have hk := (find_again hrow).2
          exact ⟨hS, ⟨hfind, hk, ⟨r, List.mem_of_find?_eq_some hrow, hk, fun _ _ => rfl⟩, [], rfl, fun _ hin => by simp at hin⟩, hid⟩
  | inserting m om' mem fs ms => exact h.elim
  | deleting m ms => exact ⟨sound_dropMarks hS h, trivial, .of_rows rfl⟩
  | saving m om' mem fs ms =>
    obtain ⟨hfind, hmk, ⟨r, hr, hrk, hst⟩, pre, hsp, hval⟩ := h
    have hom' : om' ∈ A.models := List.mem_of_find?_eq_some hfind
    have hpkc : om'.model.pk ∉ om'.cols := hU.kept om' hom'
    have hnull : m.oid ≠ .null := hrk ▸ (hS.keys om' hom').2 r hr
    have hsql : Val.sqlEq (r om'.model.pk) (mem om'.model.pk) = true := Val.sqlEq_iff.2 ⟨by rw [hrk, hmk], by rw [hrk]; exact hnull⟩
    cases fs with
    | cons f fs =>
      have hfin : f ∈ om'.saved := by rw [hsp]; exact List.mem_append_right _ (List.mem_cons_self ..)
      have hfpk : f.col ≠ om'.model.pk := fun e => hpkc (List.mem_map.2 ⟨f, hfin, e⟩)
      cases hv : f.preSave A om'.model db false mem with
      | error e =>
        simp only [App.flushStep, hv]
        exact ⟨hS, trivial, hid⟩
      | ok v =>
        simp only [App.flushStep, hv]
        -- plain data keeps its value
        have hplain : Still A D om'.model.table f.col → v = mem f.col := by
          intro hs
          have hk : f.kind.computed = false := by
            cases hk : f.kind.computed with
            | false => rfl
            | true => exact absurd (List.mem_map.2 ⟨f, List.mem_filter.2 ⟨hfin, hk⟩, rfl⟩) (hs.2 om' hom' rfl)
          simp only [SaveField.preSave] at hv
          cases hkind : f.kind with
          | plain => rw [hkind] at hv; simpa using hv.symm
          | callback cb' => rw [hkind] at hk; simp [Kind.computed] at hk
          | cacheKey => rw [hkind] at hk; simp [Kind.computed] at hk
          | aggregate =>
            rw [hkind] at hv
            have : (db.rows om'.model.table).find? (fun r' => Val.sqlEq (r' om'.model.pk) (mem om'.model.pk)) = some r := by
              cases hf : (db.rows om'.model.table).find? (fun r' => Val.sqlEq (r' om'.model.pk) (mem om'.model.pk)) with
              | none => exact absurd hsql (List.find?_eq_none.1 hf r hr)
              | some r' =>
                have h1 := List.mem_of_find?_eq_some hf
                have h2 := (Val.sqlEq_iff.1 (List.find?_some (p := fun r' : Row => Val.sqlEq (r' om'.model.pk) (mem om'.model.pk)) hf)).1
                rw [row_unique hS.keys hom' h1 hr (by rw [h2, hmk, hrk])]
            simp only [Bool.false_eq_true, if_false, this, Except.ok.injEq] at hv
            rw [← hv, hst _ hs]
        have hset : StillRel A D om'.model.table mem (mem.set f.col v) := by
          intro c hc
          simp only [Row.set]
          split
          · rename_i e
            subst e
            exact hplain hc
          · rfl
        refine ⟨hS, ⟨hfind, ?_, ⟨r, hr, hrk, fun c hc => (hset c hc).trans (hst c hc)⟩, pre ++ [f], by rw [hsp, List.append_assoc]; rfl, ?_⟩, hid⟩
        · rw [hset _ (hU.keys om' hom'), hmk]
        · rintro rfl hin
          rw [value_still hU hid.rows (r := mem) (hU.model ▸ hset)]
          rcases List.mem_append.1 hin with hin | hin
          · have hne : f.col ≠ cb.field := by
              intro e
              have hnd := hU.cols
              rw [OrmModel.cols, hsp, List.map_append] at hnd
              exact (List.nodup_append.1 hnd).2.2 cb.field (List.mem_map.2 ⟨_, hin, rfl⟩) f.col (by simp) e.symm
            simp only [Row.set]
            rw [if_neg (Ne.symm hne)]
            exact hval rfl hin
          · simp only [List.mem_singleton] at hin
            subst hin
            simp only [SaveField.preSave, Except.ok.injEq] at hv
            simp only [Row.set, if_true]
            exact hv.symm
    | nil =>
      have hany : (db.rows om'.model.table).any (isRowOf om'.model (mem om'.model.pk)) = true := List.any_eq_true.2 ⟨r, hr, hsql⟩
      simp only [App.flushStep, hany, if_true, App.exec]
      cases he : A.engine.exec A.fuel (saveUpdate om' mem) db with
      | error e => exact ⟨hS, trivial, hid⟩
      | ok db1 =>
        have hrows := save_rows hU.installed (hS.keys om' hom').1 hr (by rw [hrk, hmk]) (by rw [hrk]; exact hnull) he
        have hstill : ∀ t, Pw (fun a b => StillRel A D t a b ∧ SaveRel D om' mem t a b) (db.rows t) (db1.rows t) := fun t =>
          (hrows t).imp fun a ha b _ hab => ⟨still_saved hab fun ht hk => by
            subst ht
            rw [row_unique hS.keys hom' ha hr (by rw [hk, hmk, hrk])]
            exact hst, hab⟩
        have hst' : ∀ t, Pw (StillRel A D t) (db.rows t) (db1.rows t) := fun t => (hstill t).imp fun _ _ _ _ h => h.1
        have hT := staleMarked_exec hU.installed hU.declared hU.noReentry he
          (fun p hp hpt x r => if_neg (hU.pks om' hom' p hp hpt)) hS.keysOk hS.stale
        have hnw : ¬ Written D cb.model.table cb.field := fun ⟨dn, hdn, h⟩ => hU.field dn hdn h
        -- the saved instance is up to date
        have hsaved : om' = om → ∀ a b, StillRel A D cb.model.table a b → SaveRel D om' mem cb.model.table a b → a ∈ db.rows cb.model.table →
            a cb.model.pk = m.oid → cb.Fresh db1 b := by
          rintro rfl a b h1 h2 ha hk
          have hmod := hU.model
          have hin : ⟨cb.field, .callback cb⟩ ∈ pre := by
            have := hU.saved
            rw [hsp, List.append_nil] at this
            exact this
          have hcol : cb.field ∈ om'.saved.map SaveField.col := List.mem_map.2 ⟨_, hU.saved, rfl⟩
          have hb : b cb.field = mem cb.field := by
            rw [h2.saved (by rw [hmod]) (by rw [hmod, hk, ← hmk, hmod]) _ hnw]
            simp [savedRow, hcol]
          have har : a = r := by
            rw [← hmod] at ha hk
            exact row_unique hS.keys hom' ha hr (by rw [hk, hrk])
          unfold Callback.Fresh
          rw [hb, hval rfl hin, value_still hU hst' h1]
          refine value_still hU hid.rows fun c hc => ?_
          rw [har]
          exact hst c (hmod ▸ hc)
        have hmoved : Moved A D cb db db1 := by
          refine ⟨hst', (hstill cb.model.table).imp fun a ha b _ ⟨h1, h2⟩ => ⟨h1, fun hf => ?_⟩⟩
          by_cases hx : cb.model.table = om'.model.table ∧ a om'.model.pk = mem om'.model.pk
          · have hom : om' = om := hU.only om' hom' (by rw [hU.model, ← hx.1])
            refine hsaved hom a b h1 h2 ha ?_
            rw [← hmk, ← hx.2, hom, hU.model]
          · unfold Callback.Fresh at hf ⊢
            rw [h2.other (fun ht hk => hx ⟨ht, hk⟩) _ hnw, value_still hU hst' h1]
            exact hf
        refine ⟨⟨?_, hT.1, hT.2⟩, fun hct b hb hk => ?_, hmoved⟩
        · intro om'' hom''
          have hp := hst' om''.model.table
          constructor
          · rw [← hp.map_eq (f := fun r => r om''.model.pk) fun a b hab => (hab _ (hU.keys om'' hom'')).symm]
            exact (hS.keys om'' hom'').1
          · intro b hb
            obtain ⟨a, ha, hab⟩ := hp.right hb
            rw [hab _ (hU.keys om'' hom'')]
            exact (hS.keys om'' hom'').2 a ha
        · have hom : om' = om := by
            have hf := hU.found
            rw [← hct, hfind] at hf
            exact Option.some.inj hf
          obtain ⟨a, ha, h1, h2⟩ := (hstill cb.model.table).right hb
          refine hsaved hom a b h1 h2 ha ?_
          rw [← hk, h1 _ (hU.model ▸ hU.keys om (List.mem_of_find?_eq_some hU.found))]

/-- A statement of another session that leaves the instance alone. -/
theorem callOk_other (hU : Unchained A D om cb) (hS : Sound A cb db) {pc : Pc} {s : Stmt} (he : A.engine.exec A.fuel s db = .ok db')
    (hL : LegalStmt A.engine cb db s) (hl : ∀ m, pc.busy = some m → LeavesAlone A m db db') (h : CallOk A D om cb pc db) :
    CallOk A D om cb pc db' := by
  cases pc with
  | saving m om' mem fs ms =>
    obtain ⟨hfind, hk, ⟨r, hr, hrk, hst⟩, pre, hsp, hval⟩ := h
    have hla := hl m rfl
    have hom' : om' ∈ A.models := List.mem_of_find?_eq_some hfind
    have hr' := (hla.row om' hom' (found_ct hfind) r hrk).1 hr
    refine ⟨hfind, hk, ⟨r, hr', hrk, hst⟩, pre, hsp, ?_⟩
    rintro rfl hin
    rw [hval rfl hin]
    have hmod := hU.model
    have hct : m.ct = cb.model.ct := by rw [← found_ct hfind, hmod]
    have hmark : db'.dirty.count ⟨cb.model.ct, m.oid⟩ = db.dirty.count ⟨cb.model.ct, m.oid⟩ := by
      rw [← hct]
      exact hla.mark
    have hC : TrackedProp cb fun db1 r1 => ∀ d ∈ cb.deps, seen d.reads (relatedRows d.dep db r) = seen d.reads (relatedRows d.dep db1 r1) :=
      fun _ _ _ _ _ _ hseen h d hd => (h d hd).trans (hseen d hd)
    obtain ⟨new, h1⟩ := unmarked_keeps hU.installed hU.declared hU.noReentry he hL hS.keysOk hmark hC (fun r1 hr1 hk1 d hd => by
      have : r1 = r := by
        rw [← hmod] at hr1 hk1
        exact row_unique hS.keys hom' hr1 hr (by rw [hk1, hrk])
      rw [this, related_rows (db := { db with dirty := [] }) (db' := db) rfl])
    simp only [Callback.value]
    congr 1
    refine List.map_congr_left fun d hd => ?_
    have hthis : d.dep.this = om'.model := (hU.declared.this d hd).trans hmod.symm
    have hc : ∀ x : Db, relatedRows d.dep x mem = relatedRows d.dep x r := fun x =>
      relatedRows_congr (notBackGeneric (hU.declared.watched d hd)) (by rw [hthis, hk, hrk]) fun c hc =>
        hst c (hmod ▸ hU.inputs _ (mem_inputs_own (List.mem_append_right _ (List.mem_flatMap.2 ⟨d, hd, hc⟩))))
    rw [hc, hc, h1 r (hmod ▸ hr') (hmod ▸ hrk) d hd, related_rows (db := { db' with dirty := new }) (db' := db') rfl]
  | inserting m om' mem fs ms => exact h
  | deleting m ms =>
    intro hct
    have := (hl m rfl).mark
    rw [show m = ⟨cb.model.ct, m.oid⟩ from hct ▸ rfl] at this
    exact fresh_kept hU.installed hU.declared hU.noReentry he hL hS.keysOk this (h hct)
  | _ => trivial

theorem sound_crewTurns (hU : Unchained A D om cb) : ∀ (ts : List CrewTurn) {st : List Pc × Db}, Sound A cb st.2 →
    (∀ pc ∈ st.1, CallOk A D om cb pc st.2) → Discreet A cb ts st → Sound A cb (A.crewTurns ts st).2
  | [], _, hS, _, _ => hS
  | .call :: ts, _, hS, h, hd => by
    refine sound_crewTurns hU ts (st := (_, _)) hS (fun pc hpc => ?_) hd
    rcases List.mem_append.1 hpc with hpc | hpc
    · exact h pc hpc
    · rw [List.mem_singleton.1 hpc]; trivial
  | .step i :: ts, st, hS, h, hd => by
    simp only [Discreet, App.crewTurns, App.crewTurn] at hd ⊢
    cases hi : st.1[i]? with
    | none =>
      rw [hi] at hd
      exact sound_crewTurns hU ts hS h hd
    | some pc =>
      rw [hi] at hd
      obtain ⟨h1, h2, h3⟩ := sound_flushStep hU hS (h pc (List.mem_of_getElem? hi))
      refine sound_crewTurns hU ts (st := (_, _)) h1 (fun pc' hpc' => ?_) hd
      rcases List.mem_or_eq_of_mem_set hpc' with hpc' | rfl
      · exact callOk_moved hU h3 (h pc' hpc')
      · exact h2
  | .other s :: ts, st, hS, h, ⟨hL, hx, hd⟩ => by
    simp only [App.crewTurns, App.crewTurn] at hd ⊢
    cases he : A.exec s st.2 with
    | error e =>
      rw [he] at hd
      exact sound_crewTurns hU ts hS h hd
    | ok db1 =>
      rw [he] at hd
      have he' : A.engine.exec A.fuel s st.2 = .ok db1 := by
        simp only [App.exec] at he
        cases h : A.engine.exec A.fuel s st.2 with
        | error e => rw [h] at he; simp at he
        | ok x => rw [h] at he; simpa using he
      obtain ⟨h1, h2⟩ := hx db1 he
      have hT := staleMarked_exec hU.installed hU.declared hU.noReentry he' hL hS.keysOk hS.stale
      exact sound_crewTurns hU ts (st := (_, _)) ⟨h1, hT.1, hT.2⟩ (fun pc hpc => callOk_other hU hS he' hL (h2 pc hpc) (h pc hpc)) hd

end

/-- Once all calls have returned there are no markers, if there are no other sessions. -/
theorem crew_done {A : App} : ∀ (ts : List CrewTurn) {st : List Pc × Db}, (∀ s, CrewTurn.other s ∉ ts) →
    (st.1 ≠ [] → (∀ pc ∈ st.1, pc.returned = true) → st.2.dirty = []) →
    (A.crewTurns ts st).1 ≠ [] → (∀ pc ∈ (A.crewTurns ts st).1, pc.returned = true) → (A.crewTurns ts st).2.dirty = []
  | [], _, _, h => h
  | t :: ts, st, ho, h => by
    refine crew_done ts (fun s hs => ho s (List.mem_cons_of_mem _ hs)) ?_
    intro hne hall
    cases t with
    | other s => exact absurd (List.mem_cons_self ..) (ho s)
    | call =>
      have := hall .check (List.mem_append_right _ (List.mem_singleton.2 rfl))
      simp [Pc.returned] at this
    | step i =>
      simp only [App.crewTurn] at hne hall ⊢
      cases hi : st.1[i]? with
      | none =>
        simp only [hi] at hne hall ⊢
        exact h hne hall
      | some pc =>
        simp only [hi] at hne hall ⊢
        obtain ⟨hil, hie⟩ := List.getElem?_eq_some_iff.1 hi
        have hd : (A.flushStep pc st.2).1.returned = true := hall _ (List.mem_set hil _)
        cases pc with
        | check =>
          simp only [App.flushStep] at hd ⊢
          split
          · assumption
          · rename_i hx
            rw [if_neg hx] at hd
            simp [Pc.returned] at hd
        | done =>
          simp only [App.flushStep] at hall ⊢
          refine h (fun e => by rw [e] at hil; simp at hil) ?_
          rw [← hie, List.set_getElem_self] at hall
          exact hall
        | fetch => simp [App.flushStep, Pc.returned] at hd
        | failed e => simp [App.flushStep, Pc.returned] at hd
        | deleting m ms => simp [App.flushStep, Pc.returned] at hd
        | loop ms =>
          cases ms with
          | nil => simp [App.flushStep, Pc.returned] at hd
          | cons m ms =>
            simp only [App.flushStep] at hd
            split at hd <;> simp [Pc.returned] at hd
        | saving m om mem fs ms =>
          cases fs with
          | nil =>
            simp only [App.flushStep] at hd
            split at hd
            · split at hd <;> simp [Pc.returned] at hd
            · simp [Pc.returned] at hd
          | cons f fs =>
            simp only [App.flushStep] at hd
            split at hd <;> simp [Pc.returned] at hd
        | inserting m om mem fs ms =>
          cases fs with
          | nil =>
            simp only [App.flushStep] at hd
            split at hd <;> simp [Pc.returned] at hd
          | cons f fs =>
            simp only [App.flushStep] at hd
            split at hd <;> simp [Pc.returned] at hd

end Denorm
