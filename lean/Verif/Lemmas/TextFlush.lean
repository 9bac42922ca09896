import Verif.Spec.KeyText
import Verif.Lemmas.KeyText
import Verif.Lemmas.ToField
import Verif.Lemmas.Session
import Verif.Lemmas.SqlRead
/-!
# flush() over texts does what flush() over keys does
-/
namespace Denorm

/-! ## Statements -/

section
variable {E : Engine}

/-- The outcome of a step, statement or save over keys, as an outcome over texts. -/
def onDisk {α ε ε' : Type} (f : ε → ε') (g : α → Db → α × Disk) : Except ε (α × Db) → Except ε' (α × Disk)
  | .ok p => .ok (g p.1 p.2)
  | .error e => .error (f e)

theorem stepText_disk (it : Item) (db : Db) : E.stepText it db.disk = onDisk id (fun W db' => (W, db'.disk)) (E.step it db) := by
  cases it with
  | write fr t ops =>
    obtain ⟨h1, h2⟩ := applyOps_withDirty (E := E) t ops db []
    simp only [Engine.stepText, Engine.step, onDisk, Db.disk, h1, h2]
  | act fr ch a =>
    cases a with
    | markValues ct s c q => simp [Engine.stepText, Engine.step, onDisk, Db.disk, Db.addMarks, Mark.written]
    | markSelect ct sel t k s c q => simp [Engine.stepText, Engine.step, onDisk, Db.disk, Db.addMarks]
    | update u =>
      simp only [Engine.stepText, Engine.step]
      by_cases hb : E.backend = .mysql ∧ u.table ∈ fr.tables
      · rw [if_pos hb, if_pos hb]; rfl
      · rw [if_neg hb, if_neg hb]; rfl

theorem drainText_disk : ∀ (n : Nat) (W : List Item) (db : Db),
    E.drainText n W db.disk = match E.drain n W db with | .ok db' => .ok db'.disk | .error e => .error e
  | n, [], db => by simp [Engine.drainText, Engine.drain]
  | 0, _ :: _, db => by simp [Engine.drainText, Engine.drain]
  | n + 1, it :: W, db => by
    simp only [Engine.drainText, Engine.drain, stepText_disk]
    cases E.step it db with
    | error e => rfl
    | ok p => exact drainText_disk n _ _

/-- A statement over texts. -/
theorem execText_disk (fuel : Nat) (s : Stmt) (db : Db) :
    E.execText fuel s db.disk = match E.exec fuel s db with | .ok db' => .ok db'.disk | .error e => .error e := by
  have hs : E.start s db.disk.db = E.start s db := by cases s <;> rfl
  rw [Engine.execText, hs, drainText_disk]
  rfl

end

/-! ## Types are kept -/

section
variable {E : Engine} {σ : Typing} {keyType : Nat → KeyType} {b : Backend}

theorem Row.Fits.set {t : TableName} {r : Row} {c : Col} {v : Val} (h : r.Fits b σ t) (hv : ∀ τ, σ t c = some τ → v = .null ∨ τ.Holds b v) :
    (r.set c v).Fits b σ t := by
  intro c' τ hc
  unfold Row.set
  by_cases he : c' = c
  · subst he
    rw [if_pos rfl]
    exact hv τ hc
  · rw [if_neg he]
    exact h c' τ hc

theorem fits_applyOps {t : TableName} {ops : List RowOp} {db : Db} (h : db.Fits b σ) (ho : ∀ op ∈ ops, op.Keeps (Row.Fits b σ t)) :
    (applyOps E t ops db).1.Fits b σ ∧ ∀ ch ∈ (applyOps E t ops db).2, ch.table = t ∧ ch.old.Fits b σ t ∧ ch.new.Fits b σ t := by
  obtain ⟨h1, h2⟩ := still_applyOps (E := E) (t := t) (P := Row.Fits b σ t) (M := fun _ => True) (base := db) ops
    ⟨fun _ _ => rfl, ⟨[], by simp⟩, h t⟩ ho
  refine ⟨fun t' r hr => ?_, h2⟩
  by_cases ht : t' = t
  · subst ht; exact h1.here r hr
  · rw [h1.rows t' ht] at hr; exact h t' r hr

/-- The work that is left respects the types. -/
def Item.Fits (E : Engine) (b : Backend) (σ : Typing) : Item → Prop
  | .write _ t ops => ∀ op ∈ ops, op.Keeps (Row.Fits b σ t)
  | .act _ ch a => ch.old.Fits b σ ch.table ∧ ch.new.Fits b σ ch.table ∧ ∃ tr ∈ E.triggers, tr.table = ch.table ∧ a ∈ tr.actions

def MarksOk (b : Backend) (keyType : Nat → KeyType) (db : Db) : Prop := ∀ m ∈ db.dirty, m.oid = .null ∨ (keyType m.ct).Holds b m.oid

theorem MarksOk.addMarks {db : Db} (h : MarksOk b keyType db) {ms : List Mark} (hm : ∀ m ∈ ms, m.oid = .null ∨ (keyType m.ct).Holds b m.oid) :
    MarksOk b keyType (db.addMarks ms) := by
  intro m hm'
  rcases List.mem_append.1 hm' with hm' | hm'
  · exact h m hm'
  · exact hm m hm'

theorem fits_reach (hT : ∀ tr ∈ E.triggers, ∀ a ∈ tr.actions, a.Typed σ keyType tr.table) {W W' : List Item} {db db' : Db} (hr : E.Reach W db W' db')
    (hW : ∀ it ∈ W, it.Fits E b σ) (h : db.Fits b σ) (hm : MarksOk b keyType db) : db'.Fits b σ ∧ MarksOk b keyType db' := by
  induction hr with
  | refl => exact ⟨h, hm⟩
  | @step it W new db db1 W2 db2 hs hr ih =>
    have hit := hW it (List.mem_cons_self ..)
    have hrest : ∀ it ∈ W, it.Fits E b σ := fun it hit => hW it (List.mem_cons_of_mem _ hit)
    suffices hk : (∀ it ∈ new, it.Fits E b σ) ∧ db1.Fits b σ ∧ MarksOk b keyType db1 by
      refine ih (fun it hit => ?_) hk.2.1 hk.2.2
      rcases List.mem_append.1 hit with hit | hit
      · exact hk.1 it hit
      · exact hrest it hit
    cases it with
    | write fr t ops =>
      simp only [Engine.step, Except.ok.injEq, Prod.mk.injEq] at hs
      obtain ⟨rfl, rfl⟩ := hs
      obtain ⟨h1, h2⟩ := fits_applyOps (E := E) h hit
      refine ⟨fun it hit => ?_, h1, ?_⟩
      · obtain ⟨ch, hch, hit⟩ := List.mem_flatMap.1 hit
        obtain ⟨tr, htr, hen, a, ha, rfl⟩ := mem_fired.1 hit
        obtain ⟨c1, c2, c3⟩ := h2 ch hch
        subst c1
        refine ⟨c2, c3, tr, htr, ?_, ha⟩
        simp only [Engine.enters, Bool.and_eq_true, decide_eq_true_eq] at hen
        exact hen.1.1.1
      · unfold MarksOk
        rw [(applyOps_withDirty (E := E) t ops db []).2]
        exact hm
    | act fr ch a =>
      obtain ⟨h1, h2, tr, htr, ht, ha⟩ := hit
      have ha' := hT tr htr a ha
      have hside : ∀ s, (ch.side s).Fits b σ tr.table := by intro s; rw [ht]; cases s <;> assumption
      cases a with
      | markValues ct s c q =>
        simp only [Engine.step, Except.ok.injEq, Prod.mk.injEq] at hs
        obtain ⟨rfl, rfl⟩ := hs
        refine ⟨by simp, h, hm.addMarks fun m hm' => ?_⟩
        rw [List.mem_singleton.1 hm']
        exact hside s c _ ha'
      | markSelect ct sel t' k s c q =>
        simp only [Engine.step, Except.ok.injEq, Prod.mk.injEq] at hs
        obtain ⟨rfl, rfl⟩ := hs
        refine ⟨by simp, h, hm.addMarks fun m hm' => ?_⟩
        obtain ⟨r, hr, rfl⟩ := List.mem_map.1 (mem_dedup.1 hm')
        exact h t' r (List.mem_filter.1 hr).1 sel _ ha'
      | update u =>
        simp only [Engine.step] at hs
        split at hs
        · simp at hs
        · simp only [Except.ok.injEq, Prod.mk.injEq] at hs
          obtain ⟨rfl, rfl⟩ := hs
          refine ⟨fun it hit => ?_, h, hm⟩
          obtain ⟨l, rfl, hl⟩ := mem_writes hit
          intro op hop
          obtain ⟨i, _, rfl⟩ := List.mem_map.1 (hl op hop)
          intro x r hr
          exact hr.set fun τ hτ => by rw [show σ u.table u.col = none from ha'] at hτ; cases hτ

theorem fits_exec (hT : ∀ tr ∈ E.triggers, ∀ a ∈ tr.actions, a.Typed σ keyType tr.table) {s : Stmt} (hs : s.Fits b σ) {fuel : Nat} {db db' : Db}
    (h : db.Fits b σ) (hm : MarksOk b keyType db) (he : E.exec fuel s db = .ok db') : db'.Fits b σ ∧ MarksOk b keyType db' := by
  refine fits_reach hT (Engine.reach_of_drain _ _ _ _ he) (fun it hit => ?_) h hm
  obtain ⟨l, rfl, hl⟩ := mem_writes hit
  intro op hop
  have := hl op hop
  cases s with
  | insert t rs => obtain ⟨r, hr, rfl⟩ := List.mem_map.1 this; exact hs r hr
  | update t w f => obtain ⟨i, _, rfl⟩ := List.mem_map.1 this; exact hs
  | delete t w => obtain ⟨i, _, rfl⟩ := List.mem_map.1 this; trivial

end

/-! ## Saving -/

section
variable {T : TextApp} {σ : Typing}

theorem preSaveAll_view (m : Model) (db : Db) (add : Bool) : ∀ (fs : List SaveField) (mem : Row),
    preSaveAll (T.view db.disk) m db.disk.db add fs mem = preSaveAll T.app m db add fs mem
  | [], _ => rfl
  | f :: fs, mem => by
    have hf : f.preSave (T.view db.disk) m db.disk.db add mem = f.preSave T.app m db add mem := by
      unfold SaveField.preSave
      cases f.kind with
      | plain => rfl
      | callback cb => exact congrArg Except.ok (value_withDirty cb db [] mem)
      | aggregate => rfl
      | cacheKey => rfl
    simp only [preSaveAll, hf]
    cases f.preSave T.app m db add mem with
    | error e => rfl
    | ok v => exact preSaveAll_view m db add fs _

theorem exec_disk (s : Stmt) (db : Db) : T.exec s db.disk = match T.app.exec s db with | .ok db' => .ok db'.disk | .error e => .error (.orm e) := by
  unfold TextApp.exec App.exec
  rw [execText_disk, show T.app.engine = T.engine from rfl, show T.app.fuel = T.fuel from rfl]
  cases T.engine.exec T.fuel s db <;> rfl

theorem save_disk (om : OrmModel) (mem : Row) (db : Db) :
    T.save om mem db.disk = match T.app.save om mem db with | .ok p => .ok (p.1.disk, p.2) | .error e => .error (.orm e) := by
  unfold TextApp.save App.save
  rw [preSaveAll_view]
  cases preSaveAll T.app om.model db false om.saved mem with
  | error e => rfl
  | ok mem1 =>
    simp only []
    have hr : db.disk.db.rows = db.rows := rfl
    rw [hr]
    by_cases ha : (db.rows om.model.table).any (isRowOf om.model (mem om.model.pk)) = true
    · rw [if_pos ha, if_pos ha, exec_disk]
      cases T.app.exec (saveUpdate om mem1) db <;> rfl
    · rw [if_neg ha, if_neg ha, preSaveAll_view]
      cases preSaveAll T.app om.model db true om.saved mem1 with
      | error e => rfl
      | ok mem2 =>
        simp only [exec_disk]
        cases T.app.exec (.insert om.model.table [mem2]) db <;> rfl

theorem fits_preSaveAll {A : App} {m : Model} {db : Db} {add : Bool} {b : Backend} {t : TableName} : ∀ {fs : List SaveField} {mem mem' : Row},
    (∀ f ∈ fs, f.Typed b σ t) → mem.Fits b σ t → preSaveAll A m db add fs mem = .ok mem' → mem'.Fits b σ t
  | [], mem, mem', _, h, he => by
    simp only [preSaveAll, Except.ok.injEq] at he
    exact he ▸ h
  | f :: fs, mem, mem', hf, h, he => by
    simp only [preSaveAll] at he
    cases hv : f.preSave A m db add mem with
    | error e => rw [hv] at he; simp at he
    | ok v =>
      rw [hv] at he
      refine fits_preSaveAll (fun f hf' => hf f (List.mem_cons_of_mem _ hf')) (h.set fun τ hτ => ?_) he
      have hty := hf f (List.mem_cons_self ..)
      unfold SaveField.Typed at hty
      unfold SaveField.preSave at hv
      cases hk : f.kind with
      | plain =>
        simp only [hk, Except.ok.injEq] at hv
        exact hv ▸ h f.col τ hτ
      | callback cb =>
        simp only [hk, Except.ok.injEq] at hv hty
        exact hv ▸ hty τ hτ db mem
      | aggregate => simp only [hk] at hty; rw [hty] at hτ; cases hτ
      | cacheKey => simp only [hk] at hty; rw [hty] at hτ; cases hτ

theorem appExec_ok {A : App} {s : Stmt} {db db' : Db} (h : A.exec s db = .ok db') : A.engine.exec A.fuel s db = .ok db' := by
  unfold App.exec at h
  cases he : A.engine.exec A.fuel s db with
  | error e => rw [he] at h; simp at h
  | ok x => rw [he] at h; simpa using h

theorem fits_save (hT : T.Typed σ) {om : OrmModel} (hom : om ∈ T.models) {mem mem' : Row} {db db' : Db} (h : db.Fits T.engine.backend σ) (hm : T.MarksFit db)
    (hr : mem.Fits T.engine.backend σ om.model.table) (he : T.app.save om mem db = .ok (db', mem')) : db'.Fits T.engine.backend σ ∧ T.MarksFit db' := by
  unfold App.save at he
  cases h1 : preSaveAll T.app om.model db false om.saved mem with
  | error e => rw [h1] at he; simp at he
  | ok mem1 =>
    have hf1 := fits_preSaveAll (hT.fields om hom) hr h1
    rw [h1] at he
    simp only [] at he
    by_cases ha : (db.rows om.model.table).any (isRowOf om.model (mem om.model.pk)) = true
    · rw [if_pos ha] at he
      cases h2 : T.app.exec (saveUpdate om mem1) db with
      | error e => rw [h2] at he; simp at he
      | ok x =>
        rw [h2] at he
        simp only [Except.ok.injEq, Prod.mk.injEq] at he
        obtain ⟨rfl, -⟩ := he
        refine fits_exec (E := T.engine) hT.actions (s := saveUpdate om mem1) ?_ h hm (appExec_ok h2)
        intro x r hr c τ hc
        by_cases hcs : c ∈ om.saved.map SaveField.col
        · simp only [if_pos hcs]; exact hf1 c τ hc
        · simp only [if_neg hcs]; exact hr c τ hc
    · rw [if_neg ha] at he
      cases h2 : preSaveAll T.app om.model db true om.saved mem1 with
      | error e => rw [h2] at he; simp at he
      | ok mem2 =>
        have hf2 := fits_preSaveAll (hT.fields om hom) hf1 h2
        rw [h2] at he
        simp only [] at he
        cases h3 : T.app.exec (.insert om.model.table [mem2]) db with
        | error e => rw [h3] at he; simp at he
        | ok x =>
          rw [h3] at he
          simp only [Except.ok.injEq, Prod.mk.injEq] at he
          obtain ⟨rfl, -⟩ := he
          refine fits_exec (E := T.engine) hT.actions (s := .insert om.model.table [mem2]) ?_ h hm (appExec_ok h3)
          intro r hr
          rw [List.mem_singleton.1 hr]
          exact hf2

/-! ## Markers -/

def TextApp.MarkFits (T : TextApp) (m : Mark) : Prop := m.oid = .null ∨ (T.keyType m.ct).Holds T.engine.backend m.oid

theorem written_inj {m m' : Mark} (h : T.MarkFits m) (h' : T.MarkFits m') (he : m.written = m'.written) : m = m' := by
  obtain ⟨ct, v⟩ := m
  obtain ⟨ct', v'⟩ := m'
  simp only [Mark.written, TextMark.mk.injEq] at he
  obtain ⟨rfl, he⟩ := he
  exact congrArg _ (asText_inj h h' he)

theorem decode_written {m : Mark} (h : T.MarkFits m) : T.decode m.written = m := by
  obtain ⟨ct, v⟩ := m
  rcases h with h | h
  · simp only at h
    subst h
    rfl
  · obtain ⟨s, h1, h2⟩ := read_asText h
    simp only at h1 h2
    simp [TextApp.decode, Mark.written, h1, h2]

theorem contentObject_disk {m : Mark} (h : T.MarkFits m) (db : Db) :
    T.contentObject db.disk m.written = match T.app.contentObject db m with | .ok x => .ok x | .error e => .error (.orm e) := by
  unfold TextApp.contentObject App.contentObject
  rw [show T.app.models = T.models from rfl, show m.written.ct = m.ct from rfl]
  cases T.models.find? fun om => om.model.ct == m.ct with
  | none => rfl
  | some om =>
    simp only []
    rcases h with h | h
    · have h1 : m.written.oid = none := by simp [Mark.written, h, Val.asText]
      have h2 : (db.rows om.model.table).find? (isRowOf om.model m.oid) = none := by
        rw [List.find?_eq_none]
        intro r _ hr
        exact (Val.sqlEq_iff.1 hr).2 ((Val.sqlEq_iff.1 hr).1.trans h)
      rw [h1, h2]
    · obtain ⟨s, h1, h2⟩ := read_asText h
      have h1' : m.written.oid = some s := h1
      rw [h1']
      simp only [show m.written.ct = m.ct from rfl, h2]
      show (match (db.rows om.model.table).find? (isRowOf om.model m.oid) with | none => _ | some r => _) = _
      cases (db.rows om.model.table).find? (isRowOf om.model m.oid) <;> rfl

theorem dropMarks_disk {m : Mark} (h : T.MarkFits m) {db : Db} (hm : T.MarksFit db) : db.disk.dropMarks m.written = (db.dropMarks m).disk := by
  simp only [Disk.dropMarks, Db.disk, Db.dropMarks, Disk.mk.injEq, true_and]
  rw [List.filter_map]
  congr 1
  refine List.filter_congr fun m' hm' => ?_
  simp only [Function.comp, decide_eq_decide, ne_eq]
  exact not_congr ⟨written_inj (hm m' hm') h, fun h => h ▸ rfl⟩

theorem fits_dropMarks {m : Mark} {db : Db} (hm : T.MarksFit db) : T.MarksFit (db.dropMarks m) := fun m' hm' => hm m' (List.mem_filter.1 hm').1

theorem saveObject_disk {m : Mark} (h : T.MarkFits m) (db : Db) :
    T.saveObject m.written db.disk = match T.app.saveObject m db with | .ok db' => .ok db'.disk | .error e => .error (.orm e) := by
  unfold TextApp.saveObject App.saveObject
  rw [contentObject_disk h]
  cases T.app.contentObject db m with
  | error e => rfl
  | ok o =>
    cases o with
    | none => rfl
    | some p =>
      obtain ⟨om, r⟩ := p
      simp only [save_disk]
      cases T.app.save om r db <;> rfl

theorem contentObject_spec {A : App} {db : Db} {m : Mark} {om : OrmModel} {r : Row} (h : A.contentObject db m = .ok (some (om, r))) :
    om ∈ A.models ∧ r ∈ db.rows om.model.table := by
  unfold App.contentObject at h
  cases h1 : A.models.find? fun om => om.model.ct == m.ct with
  | none => rw [h1] at h; simp at h
  | some om' =>
    rw [h1] at h
    simp only [] at h
    cases h2 : (db.rows om'.model.table).find? (isRowOf om'.model m.oid) with
    | none => rw [h2] at h; simp at h
    | some r' =>
      rw [h2] at h
      simp only [Except.ok.injEq, Option.some.injEq, Prod.mk.injEq] at h
      obtain ⟨rfl, rfl⟩ := h
      exact ⟨List.mem_of_find?_eq_some h1, List.mem_of_find?_eq_some h2⟩

theorem fits_saveObject (hT : T.Typed σ) {m : Mark} {db db' : Db} (h : db.Fits T.engine.backend σ) (hm : T.MarksFit db)
    (he : T.app.saveObject m db = .ok db') : db'.Fits T.engine.backend σ ∧ T.MarksFit db' := by
  unfold App.saveObject at he
  cases h1 : T.app.contentObject db m with
  | error e => rw [h1] at he; simp at he
  | ok o =>
    rw [h1] at he
    cases o with
    | none =>
      simp only [Except.ok.injEq] at he
      exact he ▸ ⟨h, hm⟩
    | some p =>
      obtain ⟨om, r⟩ := p
      obtain ⟨h2, h3⟩ := contentObject_spec h1
      simp only [] at he
      cases h4 : T.app.save om r db with
      | error e => rw [h4] at he; simp at he
      | ok q =>
        rw [h4] at he
        simp only [Except.ok.injEq] at he
        exact he ▸ fits_save hT h2 h hm (h _ r h3) (mem' := q.2) (by rw [h4])

theorem flushList_disk (hT : T.Typed σ) : ∀ (ms : List Mark) {db : Db}, (∀ m ∈ ms, T.MarkFits m) → db.Fits T.engine.backend σ → T.MarksFit db →
    (T.flushList (ms.map Mark.written) db.disk = match T.app.flushList ms db with | .ok db' => .ok db'.disk | .error e => .error (.orm e)) ∧
    ∀ db', T.app.flushList ms db = .ok db' → db'.Fits T.engine.backend σ ∧ T.MarksFit db'
  | [], db, _, h, hm => ⟨rfl, fun db' he => by simp only [App.flushList, Except.ok.injEq] at he; exact he ▸ ⟨h, hm⟩⟩
  | m :: ms, db, hms, h, hm => by
    have hf := hms m (List.mem_cons_self ..)
    simp only [List.map_cons, TextApp.flushList, App.flushList, TextApp.flushOne, App.flushOne, saveObject_disk hf]
    cases h1 : T.app.saveObject m db with
    | error e => exact ⟨rfl, fun _ he => by simp at he⟩
    | ok db1 =>
      obtain ⟨h2, h3⟩ := fits_saveObject hT h hm h1
      simp only [dropMarks_disk hf h3]
      exact flushList_disk hT ms (fun m hm => hms m (List.mem_cons_of_mem _ hm)) (db := db1.dropMarks m) h2 (fits_dropMarks h3)

theorem arrange_perm (T : TextApp) (l : List Mark) : (T.app.arrange l).Perm l := by
  show (if _ then _ else _ : List Mark).Perm l
  split
  · assumption
  · exact List.Perm.refl _

theorem arrange_disk (hT : T.Typed σ) {ms : List Mark} (h : ∀ m ∈ ms, T.MarkFits m) : (T.app.arrange ms).map Mark.written = T.arrange (ms.map Mark.written) := by
  have hp : ((T.arrange (ms.map Mark.written)).map T.decode).Perm ms := by
    refine ((hT.arrange _).map T.decode).trans ?_
    rw [List.map_map]
    exact List.Perm.of_eq ((List.map_congr_left (g := id) fun m hm => decode_written (h m hm)).trans (List.map_id _))
  show (if _ then _ else _ : List Mark).map _ = _
  rw [if_pos hp, List.map_map]
  refine (List.map_congr_left (g := id) fun t ht => ?_).trans (List.map_id _)
  obtain ⟨m, hm, rfl⟩ := List.mem_map.1 ((hT.arrange _).mem_iff.1 ht)
  show (T.decode m.written).written = m.written
  rw [decode_written (h m hm)]

theorem snapshot_disk (hT : T.Typed σ) {db : Db} (hm : T.MarksFit db) :
    T.snapshot db.disk = (T.app.snapshot db).map Mark.written ∧ ∀ m ∈ T.app.snapshot db, T.MarkFits m := by
  have ha : ∀ m ∈ T.app.arrange db.dirty, T.MarkFits m := fun m h => hm m ((arrange_perm T _).mem_iff.1 h)
  have hb : T.app.engine.backend = T.engine.backend := rfl
  unfold TextApp.snapshot App.snapshot
  rw [hb]
  have hd : T.arrange db.disk.marks = (T.app.arrange db.dirty).map Mark.written := (arrange_disk hT hm).symm
  cases T.engine.backend
  · exact ⟨hd, ha⟩
  · exact ⟨hd, ha⟩
  · exact ⟨by simp only [hd]; exact dedup_map _ _ fun x hx y hy => written_inj (ha x hx) (ha y hy), fun m h => ha m (mem_dedup.1 h)⟩

/-- flush() over texts is flush() over keys. -/
theorem flush_disk (hT : T.Typed σ) : ∀ (n : Nat) {db : Db}, db.Fits T.engine.backend σ → T.MarksFit db →
    T.flush n db.disk = match T.app.flush n db with | .ok o => .ok (o.map Db.disk) | .error e => .error (.orm e)
  | n, db, h, hm => by
    unfold TextApp.flush App.flush
    by_cases hd : db.dirty = []
    · have : db.disk.marks = [] := by simp [Db.disk, hd]
      rw [if_pos hd, if_pos this]
      rfl
    · have : db.disk.marks ≠ [] := by simpa [Db.disk] using hd
      rw [if_neg hd, if_neg this]
      cases n with
      | zero => rfl
      | succ n =>
        obtain ⟨h1, h2⟩ := snapshot_disk hT hm
        obtain ⟨h3, h4⟩ := flushList_disk hT _ h2 h hm
        simp only [TextApp.pass, App.pass, h1, h3]
        cases h5 : T.app.flushList (T.app.snapshot db) db with
        | error e => rfl
        | ok db' =>
          obtain ⟨h6, h7⟩ := h4 db' h5
          exact flush_disk hT n h6 h7

end
end Denorm
