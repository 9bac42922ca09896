import Verif.Spec.BulkUnsafe
import Verif.Lemmas.Declared
import Verif.Lemmas.Calls
import Verif.Lemmas.FlushRun
import Verif.Lemmas.Transactions
/-!
# Tracking without triggers on the declaring table
-/
namespace Denorm

variable {E : Engine} {D : List Denorm} {cb : Callback} {db db' : Db}

theorem follows_of_unsafe (hE : Installed E D) (hD : DeclaredUnsafe E.backend D cb) : Follows E cb :=
  follows_of_installed hE hD.declared hD.agree hD.table hD.this hD.watched hD.keys hD.links

theorem own_not_managed (hE : Installed E D) (hD : DeclaredUnsafe E.backend D cb) : ∀ c ∈ cb.ownCols, ¬ Managed E cb.model.table c := by
  intro c hc hm
  obtain ⟨dn, hdn, h⟩ := managed_writes hE hm
  exact hD.own c hc dn hdn h

theorem freshTrackedBy (cb : Callback) :
    TrackedBy cb (fun db r => cb.deps.map fun d => seen d.reads (relatedRows d.dep db r)) fun db r => cb.Fresh db r := by
  intro db db' r r' hown hpk hV
  exact freshTracked cb db db' r r' hown hpk (fun d hd => (List.map_inj_left.1 hV) d hd)

theorem effectChange_inj {t : TableName} : ∀ {x y : Option (Event × Row × Row)}, effectChange t x = effectChange t y → x = y
  | none, none, _ => rfl
  | some _, none, h => by simp [effectChange] at h
  | none, some _, h => by simp [effectChange] at h
  | some (ev, o, n), some (ev', o', n'), h => by
    simp only [effectChange, List.cons.injEq, Change.mk.injEq, true_and, and_true] at h
    obtain ⟨rfl, rfl, rfl⟩ := h
    rfl

/-- A row after a write that spares the own columns was there before. -/
theorem spared_step {fr : Frame} {t : TableName} {x : Option (Event × Row × Row)} (hw : WriteOk E cb fr t db db' x)
    (hi : ∀ o n, x = some (.insert, o, n) → t ≠ cb.model.table)
    (hu : ∀ o n, x = some (.update, o, n) → t = cb.model.table → ∀ c ∈ cb.ownCols, n c = o c)
    {r' : Row} (hr : r' ∈ db'.rows cb.model.table) :
    ∃ r ∈ db.rows cb.model.table, r cb.model.pk = r' cb.model.pk ∧ ∀ c ∈ cb.ownCols, r c = r' c := by
  by_cases ht : cb.model.table = t
  · have hr' := hr
    rw [ht] at hr
    rcases effect_mem hw.eff hr with h | h | ⟨o, ho, h⟩
    · exact ⟨r', ht ▸ h, rfl, fun _ _ => rfl⟩
    · exact absurd ht.symm (hi _ _ h)
    · refine ⟨o, ht ▸ ho, (hw.keep o r' h _ (List.mem_cons_self ..) ht).symm, fun c hc => (hu o r' h ht.symm c hc).symm⟩
  · exact ⟨r', by rw [← hw.other _ ht]; exact hr, rfl, fun _ _ => rfl⟩

/-- The invariant for statements that spare the own columns. -/
theorem sparedInv (hT : Follows E cb) (hO : ∀ c ∈ cb.ownCols, ¬ Managed E cb.model.table c) {rank : String → Nat} (hR : Ranked E rank) {s : Stmt}
    (hs : SparesOwn cb s) : StepInv E (TrackInv E cb rank s fun db r => cb.Fresh db r) := by
  refine followInvBy E cb hT rank hR s (viewed_seen hT) (fun _ _ => trivial) _ (freshTrackedBy cb) ?_
  intro fr t op ops db x hit hw hch r' hr'
  refine .inr (.inl (spared_step hw ?_ ?_ hr'))
  · intro o n hx ht
    obtain ⟨x', _, hch', hupd, hins, hdel⟩ := applyOp_effect E t op db
    have hxx : x' = x := effectChange_inj (hch'.symm.trans hch)
    subst hxx
    rcases write_facts hit hupd hins hdel with ⟨h1, _, h3⟩ | ⟨col, _, hxs, _⟩
    · have hop := hins o n hx
      cases s with
      | insert t' rs => exact hs (h1.symm.trans ht)
      | update t' w σ => obtain ⟨i, hi⟩ := h3; rw [hop] at hi; simp at hi
      | delete t' w => rw [TopOp, hop] at h3; simp at h3
    · exact absurd (hxs _ _ _ hx).1 (by simp)
  · intro o n hx ht c hc
    obtain ⟨x', _, hch', hupd, hins, hdel⟩ := applyOp_effect E t op db
    have hxx : x' = x := effectChange_inj (hch'.symm.trans hch)
    subst hxx
    rcases write_facts hit hupd hins hdel with ⟨h1, _, h3⟩ | ⟨col, hm, hxs, _⟩
    · obtain ⟨i, σ, hop, hn⟩ := hupd o n hx
      cases s with
      | insert t' rs => obtain ⟨r, _, hr⟩ := h3; rw [hop] at hr; simp at hr
      | update t' w σ' =>
        obtain ⟨j, hj⟩ := h3
        rw [hop] at hj
        simp only [RowOp.upd.injEq] at hj
        rw [hn, hj.2]
        exact hs (h1.symm.trans ht) c hc _ _
      | delete t' w => rw [TopOp, hop] at h3; simp at h3
    · refine (hxs _ _ _ hx).2 c ?_
      rintro rfl
      exact hO c hc (ht ▸ hm)

/-- One statement that spares the own columns. -/
theorem spared_exec (hT : Follows E cb) (hO : ∀ c ∈ cb.ownCols, ¬ Managed E cb.model.table c) (hN : NoReentry E) {fuel : Nat} {s : Stmt}
    (hs : SparesOwn cb s) (he : E.exec fuel s db = .ok db') (hL : LegalStmt E cb db s) (hK : KeysOk cb db) (hS : StaleMarked cb db) :
    KeysOk cb db' ∧ StaleMarked cb db' := by
  obtain ⟨rank, hR⟩ := hN.ranked
  have := (sparedInv hT hO hR hs).exec he ⟨hL, hK, itemOk_start E rank s db, fun r hr => (staleMarked_iff.1 hS r hr).imp id .inr⟩
  refine ⟨this.keys, staleMarked_iff.2 fun r hr => ?_⟩
  rcases this.good r hr with h1 | ⟨it, h2, _⟩ | h4
  · exact .inl h1
  · simp at h2
  · exact .inr h4

/-- A statement that writes a single row of the declaring model and gives its field what the callback returns for the new row. -/
theorem single_exec (hT : Follows E cb) (hO : ∀ c ∈ cb.ownCols, ¬ Managed E cb.model.table c) (hN : NoReentry E) {fuel : Nat} {s : Stmt}
    {op : RowOp} (hops : s.ops db = [op]) (he : E.exec fuel s db = .ok db') (hL : LegalStmt E cb db s) (hK : KeysOk cb db)
    (hS : StaleMarked cb db)
    (hnew : ∀ ev o n, (applyOp E s.table op db).2 = [⟨s.table, ev, o, n⟩] → ev ≠ .delete → n cb.field = cb.value db n) :
    KeysOk cb db' ∧ StaleMarked cb db' := by
  obtain ⟨rank, hR⟩ := hN.ranked
  have hstart : E.start s db = [.write .top s.table [op]] := by
    simp only [Engine.start, hops]
    cases E.backend <;> rfl
  have hit : ItemOk E rank s (.write .top s.table [op]) := itemOk_start E rank s db _ (by rw [hstart]; simp)
  obtain ⟨x, hw, hch⟩ := writeOk_of hT.toGround hL hK hit
  let s0 : Stmt := .delete s.table fun _ => false
  have hinv := sparedInv hT hO hR (s := s0) trivial
  rw [Engine.exec, hstart] at he
  cases fuel with
  | zero => simp [Engine.drain] at he
  | succ n =>
    simp only [Engine.drain, Engine.step, applyOps, List.append_nil] at he
    have hacts : (applyOp E s.table op db).2.flatMap (E.fired .top) = newActs E .top s.table x := by rw [hch]; rfl
    have := hinv.drain _ _ _ _ he ⟨?_, keysOk_step hw, ?_, ?_⟩
    · refine ⟨this.keys, staleMarked_iff.2 fun r hr => ?_⟩
      rcases this.good r hr with h1 | ⟨it, h2, _⟩ | h4
      · exact .inl h1
      · simp at h2
      · exact .inr h4
    · intro d _ _ _
      exact ⟨fun _ _ h => absurd h (by simp), fun _ _ _ _ _ => rfl⟩
    · intro it hi
      obtain ⟨fr', ch', a', rfl⟩ : ∃ fr ch a, it = .act fr ch a := by
        obtain ⟨ch, _, h⟩ := List.mem_flatMap.1 hi
        obtain ⟨_, _, _, a, _, rfl⟩ := mem_fired.1 h
        exact ⟨_, _, _, rfl⟩
      exact itemOk_fired hit _ hi
    · intro r' hr'
      rw [hacts]
      -- what is seen of the row changes only if the row will be marked
      rcases (viewed_seen hT).step r' hw trivial with hsee | hcov
      · have hval : cb.value (applyOp E s.table op db).1 r' = cb.value db r' := by
          simp only [Callback.value]
          rw [hsee]
        have old : r' ∈ db.rows cb.model.table → Marked cb.model (applyOp E s.table op db).1 r' ∨ cb.Fresh (applyOp E s.table op db).1 r' := by
          intro h
          rcases staleMarked_iff.1 hS r' h with h | h
          · left; unfold Marked at h ⊢; rw [hw.dirty]; exact h
          · right; unfold Callback.Fresh at h ⊢; rw [hval]; exact h
        have new : ∀ ev o, x = some (ev, o, r') → ev ≠ .delete → cb.Fresh (applyOp E s.table op db).1 r' := by
          intro ev o hx hev
          unfold Callback.Fresh
          rw [hval]
          exact hnew ev o r' (by rw [hch, hx]; rfl) hev
        by_cases ht : cb.model.table = s.table
        · have hr2 := hr'
          rw [ht] at hr2
          rcases effect_mem hw.eff hr2 with h | h | ⟨o, ho, h⟩
          · exact (old (ht ▸ h)).imp id .inr
          · exact .inr (.inr (new _ _ h (by simp)))
          · exact .inr (.inr (new _ _ h (by simp)))
        · exact (old (by rw [← hw.other _ ht]; exact hr')).imp id .inr
      · exact .inr (.inl hcov)

/-! ## save() and create() -/

/-- Columns that only plain fields write keep the attribute. -/
theorem preSaveAll_keep {A : App} {m : Model} {add : Bool} {c : Col} : ∀ {fs : List SaveField} {mem mem' : Row},
    preSaveAll A m db add fs mem = .ok mem' → (∀ f ∈ fs, f.col = c → f.kind = .plain) → mem' c = mem c
  | [], mem, mem', h, _ => by
    simp only [preSaveAll, Except.ok.injEq] at h
    rw [h]
  | f :: fs, mem, mem', h, hc => by
    simp only [preSaveAll] at h
    cases hv : f.preSave A m db add mem with
    | error e => rw [hv] at h; simp at h
    | ok v =>
      rw [hv] at h
      rw [preSaveAll_keep h fun g hg => hc g (List.mem_cons_of_mem _ hg)]
      by_cases hcf : c = f.col
      · subst hcf
        have := hc f (List.mem_cons_self ..) rfl
        simp only [SaveField.preSave, this, Except.ok.injEq] at hv
        simp [Row.set, ← hv]
      · simp [Row.set, hcf]

/-- The value depends on the own row only through what the callback reads. -/
theorem value_own (this : ∀ d ∈ cb.deps, d.dep.this = cb.model) (oneWay : ∀ d ∈ cb.deps, ∀ g, d.dep.rel ≠ .backwardM2M (.generic g))
    {r r' : Row} (hpk : r cb.model.pk = r' cb.model.pk) (hown : ∀ c ∈ cb.own ++ cb.deps.flatMap (fun d => d.dep.ownKeys), r c = r' c) :
    cb.value db r = cb.value db r' := by
  simp only [Callback.value]
  have h1 : cb.own.map r = cb.own.map r' := List.map_congr_left fun c hc => hown c (List.mem_append_left _ hc)
  rw [h1]
  congr 1
  refine List.map_congr_left fun d hd => ?_
  rw [relatedRows_congr (oneWay d hd) (by rw [this d hd]; exact hpk) fun c hc => hown c (List.mem_append_right _ (List.mem_flatMap.2 ⟨d, hd, hc⟩))]

/-- What `pre_save` computes for the callback field is right for the attributes that are written, whatever they are. -/
theorem Computes.value {A : App} {om : OrmModel} (h : Computes om cb) (this : ∀ d ∈ cb.deps, d.dep.this = cb.model)
    (oneWay : ∀ d ∈ cb.deps, ∀ g, d.dep.rel ≠ .backwardM2M (.generic g)) {add : Bool} {mem mem' : Row}
    (hp : preSaveAll A om.model db add om.saved mem = .ok mem') : mem' cb.field = cb.value db mem' := by
  obtain ⟨pre, post, hsp, hord⟩ := h.order
  have hnd : (pre.map SaveField.col ++ cb.field :: post.map SaveField.col).Nodup := by
    have := h.cols
    rw [OrmModel.cols, hsp] at this
    simpa using this
  have hpost : ∀ f ∈ post, f.col ≠ cb.field := by
    intro f hf e
    have := (List.nodup_append.1 hnd).2.1
    exact (List.nodup_cons.1 this).1 (e ▸ List.mem_map.2 ⟨f, hf, rfl⟩)
  have hnpk : ∀ f ∈ om.saved, f.col ≠ om.model.pk := fun f hf e => h.pk (List.mem_map.2 ⟨f, hf, e⟩)
  rw [hsp] at hp hnpk
  obtain ⟨rc, hp1, hp2⟩ := preSaveAll_append hp
  simp only [preSaveAll, SaveField.preSave] at hp2
  have hfield : mem' cb.field = cb.value db rc := by
    rw [preSaveAll_other hp2 cb.field hpost]
    simp [Row.set]
  rw [hfield]
  refine value_own this oneWay ?_ fun c hc => ?_
  · rw [← h.model, preSaveAll_other hp2 _ fun f hf => hnpk f (List.mem_append_right _ (List.mem_cons_of_mem _ hf))]
    have := hnpk ⟨cb.field, .callback cb⟩ (List.mem_append_right _ (List.mem_cons_self ..))
    simp only at this
    simp [Row.set, Ne.symm this]
  · obtain ⟨h1, h2⟩ := hord c hc
    rw [preSaveAll_keep hp2 h2]
    simp [Row.set, h1]

theorem update_single {om : OrmModel} {mem : Row} (hu : om.Unique db) (hin : InDatabase om mem db) :
    ∃ i r, (db.rows om.model.table)[i]? = some r ∧ (saveUpdate om mem).ops db =
      [.upd i fun _ r c => if c ∈ om.saved.map SaveField.col then mem c else r c] ∧ r om.model.pk = mem om.model.pk := by
  obtain ⟨r, hr, hk, hn⟩ := hin
  obtain ⟨i, hi⟩ := List.getElem?_of_mem hr
  refine ⟨i, r, hi, ?_, hk⟩
  simp only [saveUpdate, Stmt.ops, targetsOf_unique hu hi hk hn, List.map_cons, List.map_nil]

theorem oneWay_of (hw : ∀ d ∈ cb.deps, d.Watched) : ∀ d ∈ cb.deps, ∀ g, d.dep.rel ≠ .backwardM2M (.generic g) :=
  fun d hd => notBackGeneric (hw d hd)

/-- The written row gets the right value if it has the saved columns `mem`. -/
theorem Computes.written {om : OrmModel} (h : Computes om cb) (this : ∀ d ∈ cb.deps, d.dep.this = cb.model)
    (oneWay : ∀ d ∈ cb.deps, ∀ g, d.dep.rel ≠ .backwardM2M (.generic g)) {mem r : Row}
    (hval : mem cb.field = cb.value db mem) (hk : r om.model.pk = mem om.model.pk) :
    savedRow om mem r cb.field = cb.value db (savedRow om mem r) := by
  have hc : ∀ c ∈ cb.ownCols, savedRow om mem r c = mem c := by
    intro c hc
    by_cases hm : c ∈ om.saved.map SaveField.col
    · exact if_pos hm
    · rcases h.saved c hc with h1 | rfl
      · exact absurd h1 hm
      · exact (if_neg hm).trans hk
  rw [hc cb.field (by simp [Callback.ownCols]), hval]
  refine (value_own this oneWay ?_ fun c hcm => hc c ?_).symm
  · rw [← h.model]
    exact (if_neg h.pk).trans hk
  · simp only [Callback.ownCols, List.cons_append, List.mem_cons]; exact .inr hcm

variable {A : App}

/-- One call keeps the markers right. -/
theorem one_call (hE : Installed A.engine D) (hD : DeclaredUnsafe A.engine.backend D cb) (hN : NoReentry A.engine)
    (hpk : ∀ om ∈ A.models, om.model.pk ∉ om.cols) (hp : ∀ om ∈ A.models, ∀ p ∈ cb.pks, p.1 = om.model.table → p.2 ∉ om.cols)
    {c : OrmCall} (hL : LegalCall A cb db c) (hO : OneByOne cb db c) (hK : KeysOk cb db) (hS : StaleMarked cb db) (h : A.call db c = .ok db') :
    KeysOk cb db' ∧ StaleMarked cb db' := by
  have hT := follows_of_unsafe hE hD
  have hM := own_not_managed hE hD
  have hW := oneWay_of hD.watched
  cases c with
  | save om mem =>
    obtain ⟨⟨d, mem'⟩, h1, rfl⟩ := callErr_ok h
    have hpk1 : ∀ f ∈ om.saved, f.col ≠ om.model.pk := fun f hf e => hpk om hL.1 (List.mem_map.2 ⟨f, hf, e⟩)
    rcases save_issues h1 with ⟨hin, hpre, he⟩ | ⟨hn, mem1, hp1, hp2, he⟩
    · have hLs : LegalStmt A.engine cb db (saveUpdate om mem') := legal_saveUpdate (hp om hL.1)
      by_cases ht : om.model.table = cb.model.table
      · obtain ⟨hC, hu⟩ := hO ht
        have hk' : mem' om.model.pk = mem om.model.pk := preSaveAll_other hpre _ hpk1
        have hin' : InDatabase om mem' db := by
          obtain ⟨r, hr, h2, h3⟩ := hin
          exact ⟨r, hr, h2.trans hk'.symm, hk' ▸ h3⟩
        obtain ⟨i, r, hi, hops, hrk⟩ := update_single hu hin'
        refine single_exec hT hM hN hops he hLs hK hS ?_
        intro ev o n hch _
        simp only [saveUpdate, Stmt.table, applyOp, hi, List.cons.injEq, Change.mk.injEq, and_true, true_and] at hch
        obtain ⟨_, _, rfl⟩ := hch
        exact hC.written hD.this hW (hC.value hD.this hW hpre) hrk
      · exact spared_exec hT hM hN (s := saveUpdate om mem') (fun h => absurd h ht) he hLs hK hS
    · have hkey : mem' om.model.pk = mem om.model.pk := by
        rw [preSaveAll_other hp2 _ hpk1, preSaveAll_other hp1 _ hpk1]
      have hLs := hL.2 hn mem' hkey
      by_cases ht : om.model.table = cb.model.table
      · obtain ⟨hC, hu⟩ := hO ht
        refine single_exec hT hM hN (op := .ins mem') rfl he hLs hK hS ?_
        intro ev o n hch _
        simp only [Stmt.table, applyOp, List.cons.injEq, Change.mk.injEq, and_true, true_and] at hch
        obtain ⟨_, _, rfl⟩ := hch
        exact hC.value hD.this hW hp2
      · exact spared_exec hT hM hN (s := .insert om.model.table [mem']) (fun h => ht h) he hLs hK hS
  | saveFields om cols mem =>
    simp only [App.call] at h
    cases hs : A.saveFields om cols mem db with
    | error e => rw [hs] at h; cases h
    | ok x =>
      rw [hs] at h
      cases h
      rcases saveFields_issues hs with ⟨e, _⟩ | ⟨_, _, he⟩
      · exact e ▸ ⟨hK, hS⟩
      · refine spared_exec hT hM hN ?_ he (legal_saveUpdate (om := om.restrict cols) fun p h1 h2 h3 => hp om hL p h1 h2 (restrict_cols h3)) hK hS
        intro ht c hc x r
        refine if_neg fun hm => hO ht c hc ?_
        obtain ⟨f, hf, rfl⟩ := List.mem_map.1 hm
        simpa using (List.mem_filter.1 hf).2
  | create om mem k =>
    obtain ⟨⟨d, mem'⟩, h1, rfl⟩ := callErr_ok h
    obtain ⟨mem1, hpre, e, he⟩ := create_issues h1
    have hLs := hL mem' (by rw [e]; simp [Row.set])
    by_cases ht : om.model.table = cb.model.table
    · obtain ⟨hC, hnull, hown, hrel⟩ := hO ht
      refine single_exec hT hM hN (op := .ins mem') rfl he hLs hK hS ?_
      intro ev o n hch _
      simp only [Stmt.table, applyOp, List.cons.injEq, Change.mk.injEq, and_true, true_and] at hch
      obtain ⟨_, _, rfl⟩ := hch
      have hv := hC.value hD.this hW hpre
      have hm1 : mem1 cb.model.pk = .null := by
        rw [← hC.model, preSaveAll_other hpre _ fun f hf e => hC.pk (List.mem_map.2 ⟨f, hf, e⟩), hnull]
      obtain ⟨pre, post, hsp, hord⟩ := hC.order
      have hfm : cb.field ∈ om.cols := by rw [OrmModel.cols, hsp]; simp
      have hne : ∀ c, c ≠ cb.model.pk → mem' c = mem1 c := by
        intro c hc
        rw [e]
        simp [Row.set, hC.model, hc]
      rw [hne cb.field fun e' => hC.pk (by rw [hC.model]; exact e' ▸ hfm), hv]
      simp only [Callback.value]
      have h2 : cb.own.map mem1 = cb.own.map mem' := List.map_congr_left fun c hc => (hne c fun e' => hown (by rw [← e']; simp only [Callback.ownCols, List.cons_append, List.mem_cons, List.mem_append]; exact .inr (.inl hc))).symm
      rw [h2]
      congr 1
      refine List.map_congr_left fun d hd => ?_
      have hth := hD.this d hd
      by_cases hok : d.dep.ownKeys = []
      · have h3 : relatedRows d.dep db mem' = [] := hrel d hd hok mem' (by rw [e, ← hC.model]; simp [Row.set])
        have h4 : relatedRows d.dep db mem1 = [] := by
          have hno : ∀ v, Val.sqlEq v .null = false := fun v => by cases v <;> rfl
          rcases hf : d.dep.rel with f | f | (m | g) | (m | g)
          · simp [Dep.ownKeys, hf] at hok
          · simp [relatedRows, hf, hth, hm1, hno]
          · simp [relatedRows, hf, hth, hm1, hno]
          · simp [relatedRows, hf, hth, hm1, hno]
          · simp [relatedRows, hf, hth, hm1, hno]
          · exact absurd hf (hW d hd g)
        rw [h3, h4]
      · have hf : ∃ f, d.dep.rel = .forward f := by
          unfold Dep.ownKeys at hok
          split at hok
          · rename_i f hf; exact ⟨f, hf⟩
          · exact absurd rfl hok
        obtain ⟨f, hf⟩ := hf
        have hfc : f.column ∈ cb.ownCols := by
          simp only [Callback.ownCols, List.cons_append, List.mem_cons, List.mem_append, List.mem_flatMap]
          exact .inr (.inr ⟨d, hd, by simp [Dep.ownKeys, hf]⟩)
        by_cases hfp : f.column = cb.model.pk
        · exact absurd (hfp ▸ hfc) hown
        · simp only [relatedRows, hf, hne _ hfp]
    · exact spared_exec hT hM hN (s := .insert om.model.table [mem']) (fun h => ht h) he hLs hK hS
  | bulkCreate om objs =>
    obtain ⟨d, h1, rfl⟩ := callErr_ok h
    obtain ⟨rs, hrs, he⟩ := bulkCreate_issues h1
    refine spared_exec hT hM hN (s := .insert om.model.table rs) (fun h => hO h) he (legal_insert_of fun r hr => ?_) hK hS
    obtain ⟨o, ho, mem1, _, rfl⟩ := preSaveObjs_each hrs r hr
    exact hL o ho _ (by simp [Row.set])
  | load om mem =>
    obtain ⟨d, h1, rfl⟩ := callErr_ok h
    rcases load_issues h1 with ⟨_, he⟩ | ⟨hn, he⟩
    · exact spared_exec hT hM hN (s := saveUpdate om mem) (fun h => absurd h hO) he (legal_saveUpdate (hp om hL.1)) hK hS
    · exact spared_exec hT hM hN (s := .insert om.model.table [mem]) (fun h => hO h) he (hL.2 hn mem rfl) hK hS
  | stmt s =>
    obtain ⟨d, h1, rfl⟩ := callErr_ok h
    exact spared_exec hT hM hN hO (exec_ok h1) hL hK hS

/-! ## flush() -/

/-- What flush maintains. -/
structure GoodUnsafe (A : App) (D : List Denorm) (om : OrmModel) (cb : Callback) (db : Db) : Prop where
  installed : Installed A.engine D
  declared : DeclaredUnsafe A.engine.backend D cb
  noReentry : NoReentry A.engine
  savable : Savable A om cb db
  only : ∀ om' ∈ A.models, om'.model.table = cb.model.table → om' = om
  keys : KeysUnique A db
  keysOk : KeysOk cb db
  stale : StaleMarked cb db

variable {om : OrmModel}

theorem goodUnsafe_saveObject (hG : GoodUnsafe A D om cb db) {m : Mark} (h : A.saveObject m db = .ok db') :
    GoodUnsafe A D om cb db' ∧ (m.ct = cb.model.ct → ∀ r ∈ db'.rows cb.model.table, r cb.model.pk = m.oid → cb.Fresh db' r) := by
  have hF := hG.savable
  have hT := follows_of_unsafe hG.installed hG.declared
  have hM := own_not_managed hG.installed hG.declared
  simp only [App.saveObject, App.contentObject] at h
  cases hfind : A.models.find? (fun om => om.model.ct == m.ct) with
  | none => rw [hfind] at h; simp at h
  | some om' =>
    rw [hfind] at h
    simp only at h
    have hom' : om' ∈ A.models := List.mem_of_find?_eq_some hfind
    have hsame : m.ct = cb.model.ct → om' = om := by
      intro hct
      have hf := hF.found
      rw [← hct, hfind] at hf
      exact Option.some.inj hf
    cases hrow : (db.rows om'.model.table).find? (isRowOf om'.model m.oid) with
    | none =>
      rw [hrow] at h
      simp only [Except.ok.injEq] at h
      subst h
      refine ⟨hG, ?_⟩
      intro hct r hr hk
      have hom := hsame hct
      subst hom
      have hmod := hF.model
      rw [← hmod] at hr hk
      have := List.find?_eq_none.1 hrow r hr
      exact absurd (Val.sqlEq_iff.2 ⟨hk, (hG.keys _ hom').2 r hr⟩) this
    | some r =>
      rw [hrow] at h
      simp only at h
      cases hs : A.save om' r db with
      | error e => rw [hs] at h; simp at h
      | ok p =>
        rw [hs] at h
        simp only [Except.ok.injEq] at h
        subst h
        obtain ⟨mem, hpre, hS⟩ := saved_of_save hG.keys hom' (hF.safe.kept om' hom' om' hom' rfl) hrow hs
        have hLs : LegalStmt A.engine cb db (saveUpdate om' mem) := fun p hp hpt x r => if_neg (hF.pks om' hom' p hp hpt)
        have hT' : KeysOk cb p.1 ∧ StaleMarked cb p.1 := by
          by_cases ht : om'.model.table = cb.model.table
          · have hom := hG.only om' hom' ht
            subst hom
            have hval := hF.value_of_pre hS.plain hpre
            obtain ⟨i, r', hi, hops, hrk⟩ := update_single (hG.keys om' hom').1
              (show InDatabase om' mem db from ⟨r, hS.inTable, hS.key.symm, hS.key ▸ (hG.keys om' hom').2 r hS.inTable⟩)
            have hrr : r' = r := eq_of_key (hG.keys om' hom').1 (List.mem_of_getElem? hi) hS.inTable (hrk.trans hS.key)
            subst hrr
            refine single_exec hT hM hG.noReentry hops hS.exec hLs hG.keysOk hG.stale ?_
            intro ev o n hch _
            simp only [saveUpdate, Stmt.table, applyOp, hi, List.cons.injEq, Change.mk.injEq, and_true, true_and] at hch
            obtain ⟨_, _, rfl⟩ := hch
            have : (fun c => if c ∈ om'.saved.map SaveField.col then mem c else r' c) = mem := by
              funext c
              split
              · rfl
              · rename_i hc
                exact (hS.plain c fun hd => hc (mem_denormCols hd)).symm
            rw [this]
            exact hval
          · exact spared_exec hT hM hG.noReentry (s := saveUpdate om' mem) (fun h => absurd h ht) hS.exec hLs hG.keysOk hG.stale
        refine ⟨⟨hG.installed, hG.declared, hG.noReentry, hF.saved hom' hS, hG.only, keysUnique_saved hF.safe hom' hG.keys hS, hT'.1, hT'.2⟩, ?_⟩
        intro hct r' hr' hk
        have hom := hsame hct
        subst hom
        refine hF.fresh hG.keys hS (hF.value_of_pre hS.plain hpre) r' hr' ?_
        rw [hk, ← hF.model]
        exact (find_again hrow).2.symm

theorem goodUnsafe_dropMarks (hG : GoodUnsafe A D om cb db) {m : Mark}
    (h : m.ct = cb.model.ct → ∀ r ∈ db.rows cb.model.table, r cb.model.pk = m.oid → cb.Fresh db r) :
    GoodUnsafe A D om cb (db.dropMarks m) := by
  have hF := hG.savable
  have hrows : (db.dropMarks m).rows = db.rows := rfl
  have hfr : ∀ r, cb.Fresh (db.dropMarks m) r ↔ cb.Fresh db r := by
    intro r
    have hv : cb.value (db.dropMarks m) r = cb.value db r := by
      simp only [Callback.value, related_rows hrows]
    unfold Callback.Fresh
    rw [hv]
  refine { hG with savable := { hF with deps := fun d hd => ⟨(hF.deps d hd).triggers, ?_⟩ }, keys := hG.keys, keysOk := hG.keysOk, stale := ?_ }
  · rcases (hF.deps d hd).self with h1 | ⟨h1, h2, h3⟩
    · exact .inl h1
    · refine .inr ⟨h1, fun r hr o ho => h2 r hr o ?_, h3⟩
      rw [related_rows hrows] at ho
      exact ho
  · intro r hr hnf
    rw [hfr] at hnf
    have hm := hG.stale r hr hnf
    refine List.mem_filter.2 ⟨hm, ?_⟩
    simp only [ne_eq, decide_eq_true_eq]
    rintro rfl
    exact hnf (h rfl r hr rfl)

theorem goodUnsafe_flushList : ∀ (ms : List Mark) {db db' : Db}, GoodUnsafe A D om cb db → A.flushList ms db = .ok db' →
    GoodUnsafe A D om cb db'
  | [], db, db', hG, h => by
    simp only [App.flushList, Except.ok.injEq] at h
    exact h ▸ hG
  | m :: ms, db, db', hG, h => by
    simp only [App.flushList, App.flushOne] at h
    cases hs : A.saveObject m db with
    | error e => rw [hs] at h; simp at h
    | ok db1 =>
      rw [hs] at h
      obtain ⟨h1, h2⟩ := goodUnsafe_saveObject hG hs
      exact goodUnsafe_flushList ms (goodUnsafe_dropMarks h1 h2) h

theorem goodUnsafe_flush : ∀ (n : Nat) {db db' : Db}, GoodUnsafe A D om cb db → A.flush n db = .ok (some db') →
    GoodUnsafe A D om cb db' ∧ db'.dirty = []
  | n, db, db', hG, h => by
    unfold App.flush at h
    split at h
    · rename_i hd
      simp only [Except.ok.injEq, Option.some.injEq] at h
      exact h ▸ ⟨hG, hd⟩
    · cases n with
      | zero => simp at h
      | succ n =>
        simp only at h
        cases hs : A.pass db with
        | error e => rw [hs] at h; simp at h
        | ok db1 =>
          rw [hs] at h
          exact goodUnsafe_flush n (goodUnsafe_flushList _ hG hs) h

end Denorm
