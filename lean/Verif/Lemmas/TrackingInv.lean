import Verif.Lemmas.Tracking
/-!
# The tracking invariant holds through every statement
-/
namespace Denorm

/-- `op` is one of the row writes of statement `s`. -/
def TopOp : Stmt → RowOp → Prop
  | .insert _ rs, op => ∃ r ∈ rs, op = .ins r
  | .update _ _ σ, op => ∃ i, op = .upd i σ
  | .delete _ w, op => op = .del w

theorem topOp_of_mem {s : Stmt} {db : Db} {op : RowOp} (h : op ∈ s.ops db) : TopOp s op := by
  cases s <;> simp only [Stmt.ops, List.mem_map] at h
  · obtain ⟨r, hr, rfl⟩ := h; exact ⟨r, hr, rfl⟩
  · obtain ⟨i, _, rfl⟩ := h; exact ⟨i, rfl⟩
  · obtain ⟨_, _, rfl⟩ := h; exact rfl

/-- Ranks that rule out re-entry on sqlite. -/
def Ranked (E : Engine) (rank : String → Nat) : Prop :=
  E.backend = .sqlite → ∀ tr ∈ E.triggers, ∀ u, Action.update u ∈ tr.actions →
    ∀ tr' ∈ E.triggers, tr'.table = u.table → tr'.event = .update → u.col ∈ tr'.fields → rank tr'.name < rank tr.name

theorem NoReentry.ranked {E : Engine} (h : NoReentry E) : ∃ rank, Ranked E rank := by
  by_cases hb : E.backend = .sqlite
  · obtain ⟨rank, hr⟩ := h hb
    exact ⟨rank, fun _ => hr⟩
  · exact ⟨fun _ => 0, fun h => absurd h hb⟩

/-- Where pending work comes from: the statement itself, or a trigger. -/
def ItemOk (E : Engine) (rank : String → Nat) (s : Stmt) : Item → Prop
  | .write fr t ops =>
    (t = s.table ∧ fr.trigs = [] ∧ ∀ op ∈ ops, TopOp s op) ∨
    ∃ col, Managed E t col ∧ (∀ op ∈ ops, ∃ i σ, op = .upd i σ ∧ ∀ x r c, c ≠ col → σ x r c = r c) ∧
      (E.backend = .sqlite → ∀ tr ∈ E.triggers, tr.table = t → tr.event = .update → col ∈ tr.fields →
        ∀ n ∈ fr.trigs, rank tr.name < rank n)
  | .act fr _ a => ∃ tr ∈ E.triggers, a ∈ tr.actions ∧ (E.backend = .sqlite → ∀ n ∈ fr.trigs, rank tr.name ≤ rank n)

theorem UpdAction.set_other (u : UpdAction) (ch : Change) (db : Db) (x : Int) (r : Row) (c : Col) (h : c ≠ u.col) :
    u.set ch db x r c = r c := by
  simp [UpdAction.set, Row.set, h]

theorem itemOk_start (E : Engine) (rank : String → Nat) (s : Stmt) (db : Db) : ∀ it ∈ E.start s db, ItemOk E rank s it := by
  intro it h
  obtain ⟨l, rfl, hl⟩ := mem_writes h
  exact .inl ⟨rfl, rfl, fun op ho => topOp_of_mem (hl op ho)⟩

theorem itemOk_update {E : Engine} {rank : String → Nat} (hR : Ranked E rank) {s : Stmt} {fr : Frame} {ch : Change}
    {u : UpdAction} {db : Db} (h : ItemOk E rank s (.act fr ch (.update u))) :
    ∀ it ∈ writes E.backend fr u.table (u.ops ch db), ItemOk E rank s it := by
  intro it hit
  obtain ⟨l, rfl, hl⟩ := mem_writes hit
  obtain ⟨tr, htr, ha, hr⟩ := h
  refine .inr ⟨u.col, ⟨tr, htr, u, ha, rfl, rfl⟩, ?_, ?_⟩
  · intro op ho
    obtain ⟨i, _, rfl⟩ := List.mem_map.1 (hl op ho)
    exact ⟨i, _, rfl, fun x r c hc => u.set_other ch db x r c hc⟩
  · intro hb tr' htr' h1 h2 h3 n hn
    exact Nat.lt_of_lt_of_le (hR hb tr htr u ha tr' htr' h1 h2 h3) (hr hb n hn)

/-- On sqlite a trigger that fires for an update of a single column watches that column. -/
theorem fires_single {tr : DbTrigger} {t : TableName} {o n : Row} {col : Col} (he : tr.event = .update)
    (ho : ∀ c, c ≠ col → n c = o c) (hf : tr.fires .sqlite ⟨t, .update, o, n⟩ = true) : col ∈ tr.fields := by
  simp only [DbTrigger.fires, he] at hf
  have hch : changedCols tr.fields o n = true := by
    cases hc : tr.ctField <;> rw [hc] at hf
    · exact hf
    · simp only [Bool.and_eq_true] at hf; exact hf.1
  obtain ⟨f, hfm, hne⟩ := changedCols_iff.1 hch
  by_cases hfc : f = col
  · exact hfc ▸ hfm
  · exact absurd (ho f hfc).symm hne

/-- What is known about the write of one row. -/
theorem write_facts {E : Engine} {rank : String → Nat} {s : Stmt} {fr : Frame} {t : TableName} {op : RowOp}
    {ops : List RowOp} {db : Db} {x : Option (Event × Row × Row)}
    (h : ItemOk E rank s (.write fr t (op :: ops)))
    (hupd : ∀ o n, x = some (.update, o, n) → ∃ i σ, op = .upd i σ ∧ n = σ (E.rand db.draws) o)
    (hins : ∀ o n, x = some (.insert, o, n) → op = .ins n)
    (hdel : ∀ o n, x = some (.delete, o, n) → ∃ w, op = .del w ∧ w o = true) :
    (t = s.table ∧ fr.trigs = [] ∧ TopOp s op) ∨
    ∃ col, Managed E t col ∧ (∀ ev o n, x = some (ev, o, n) → ev = .update ∧ ∀ c, c ≠ col → n c = o c) ∧
      (E.backend = .sqlite → ∀ tr ∈ E.triggers, tr.table = t → tr.event = .update → col ∈ tr.fields →
        ∀ n ∈ fr.trigs, rank tr.name < rank n) := by
  rcases h with ⟨h1, h2, h3⟩ | ⟨col, hm, hops, hr⟩
  · exact .inl ⟨h1, h2, h3 op (List.mem_cons_self ..)⟩
  · refine .inr ⟨col, hm, ?_, hr⟩
    intro ev o n hx
    obtain ⟨i, σ, hop, hσ⟩ := hops op (List.mem_cons_self ..)
    cases ev with
    | insert => rw [hop] at hins; exact absurd (hins o n hx) (by simp)
    | delete => rw [hop] at hdel; obtain ⟨w, hw, _⟩ := hdel o n hx; exact absurd hw (by simp)
    | update =>
      obtain ⟨i', σ', hop', hn⟩ := hupd o n hx
      rw [hop] at hop'
      simp only [RowOp.upd.injEq] at hop'
      refine ⟨rfl, fun c hc => ?_⟩
      rw [hn, ← hop'.2]
      exact hσ _ _ _ hc

/-- Fired actions have a good origin. -/
theorem itemOk_fired {E : Engine} {rank : String → Nat} {s : Stmt} {fr : Frame} {t : TableName} {op : RowOp}
    {ops : List RowOp} {db : Db} (h : ItemOk E rank s (.write fr t (op :: ops))) :
    ∀ it ∈ (applyOp E t op db).2.flatMap (E.fired fr), ItemOk E rank s it := by
  intro it hit
  obtain ⟨x, _, hch, hupd, hins, hdel⟩ := applyOp_effect E t op db
  rw [hch] at hit
  obtain ⟨ch, hchm, hit⟩ := List.mem_flatMap.1 hit
  obtain ⟨tr, htr, hen, a, ha, rfl⟩ := mem_fired.1 hit
  refine ⟨tr, htr, ha, ?_⟩
  intro hb n hn
  rcases List.mem_cons.1 hn with rfl | hn'
  · exact Nat.le_refl _
  · rcases write_facts h hupd hins hdel with ⟨_, h2, _⟩ | ⟨col, hm, hx, hr⟩
    · rw [h2] at hn'; simp at hn'
    · cases x with
      | none => simp [effectChange] at hchm
      | some p =>
        obtain ⟨ev, o, n'⟩ := p
        simp only [effectChange, List.mem_singleton] at hchm
        subst hchm
        obtain ⟨hev, hoc⟩ := hx ev o n' rfl
        subst hev
        simp only [Engine.enters, Bool.and_eq_true, decide_eq_true_eq, hb] at hen
        obtain ⟨⟨⟨e1, e2⟩, e3⟩, _⟩ := hen
        exact Nat.le_of_lt (hr hb tr htr e1 e2 (fires_single e2 hoc e3) n hn')

theorem notBlocked_of {E : Engine} {rank : String → Nat} {s : Stmt} {fr : Frame} {t : TableName} {op : RowOp}
    {x : Option (Event × Row × Row)}
    (hf : (t = s.table ∧ fr.trigs = [] ∧ TopOp s op) ∨
      ∃ col, Managed E t col ∧ (∀ ev o n, x = some (ev, o, n) → ev = .update ∧ ∀ c, c ≠ col → n c = o c) ∧
      (E.backend = .sqlite → ∀ tr ∈ E.triggers, tr.table = t → tr.event = .update → col ∈ tr.fields →
        ∀ n ∈ fr.trigs, rank tr.name < rank n)) (ev : Event) (o n : Row) (hx : x = some (ev, o, n)) :
    NotBlocked E fr ⟨t, ev, o, n⟩ := by
  intro hb tr htr h1 h2 h3 hn
  rcases hf with ⟨_, h5, _⟩ | ⟨col, _, hxs, hr⟩
  · rw [h5] at hn; simp at hn
  · obtain ⟨hev, hoc⟩ := hxs ev o n hx
    subst hev
    rw [hb] at h3
    exact absurd (hr hb tr htr h1 h2 (fires_single h2 hoc h3) _ hn) (Nat.lt_irrefl _)

/-- The write of one row of a legal statement is fine for the callback. -/
theorem writeOk_of {E : Engine} {cb : Callback} (hT : Ground E cb) {rank : String → Nat} {s : Stmt} {fr : Frame}
    {t : TableName} {op : RowOp} {ops : List RowOp} {db : Db} (hL : LegalStmt E cb db s) (hK : KeysOk cb db)
    (h : ItemOk E rank s (.write fr t (op :: ops))) :
    ∃ x, WriteOk E cb fr t db (applyOp E t op db).1 x ∧ (applyOp E t op db).2 = effectChange t x := by
  obtain ⟨x, heff, hch, hupd, hins, hdel⟩ := applyOp_effect E t op db
  have hf := write_facts h hupd hins hdel
  refine ⟨x, ⟨heff, fun t' ht' => applyOp_rows_other E op db ht', applyOp_dirty E t op db, ?_, ?_, ?_, ?_,
    notBlocked_of hf, hK⟩, hch⟩
  · intro o n hx p hp hpt
    rcases hf with ⟨h1, _, h3⟩ | ⟨col, hm, hxs, _⟩
    · obtain ⟨i, σ, hop, hn⟩ := hupd o n hx
      cases s with
      | update t' w σ' =>
        obtain ⟨j, hj⟩ := h3
        rw [hop] at hj
        simp only [RowOp.upd.injEq] at hj
        rw [hn, hj.2]
        exact hL p hp (hpt.trans h1) _ _
      | insert t' rs => obtain ⟨r, _, hr⟩ := h3; rw [hop] at hr; exact absurd hr (by simp)
      | delete t' w => rw [TopOp, hop] at h3; exact absurd h3 (by simp)
    · refine (hxs _ _ _ hx).2 p.2 ?_
      intro hc
      exact hT.pks p hp (by rw [hpt, hc]; exact hm)
  · intro o n hx p hp hpt
    rcases hf with ⟨h1, _, h3⟩ | ⟨col, hm, hxs, _⟩
    · have hop := hins o n hx
      cases s with
      | insert t' rs =>
        obtain ⟨r, hr, hj⟩ := h3
        rw [hop] at hj
        simp only [RowOp.ins.injEq] at hj
        subst hj
        exact (hL n hr).1 p hp (hpt.trans h1)
      | update t' w σ => obtain ⟨j, hj⟩ := h3; rw [hop] at hj; exact absurd hj (by simp)
      | delete t' w => rw [TopOp, hop] at h3; exact absurd h3 (by simp)
    · exact absurd (hxs _ _ _ hx).1 (by simp)
  · intro o n hx d hd hdt
    rcases hf with ⟨h1, _, h3⟩ | ⟨col, hm, hxs, _⟩
    · have hop := hins o n hx
      cases s with
      | insert t' rs =>
        obtain ⟨r, hr, hj⟩ := h3
        rw [hop] at hj
        simp only [RowOp.ins.injEq] at hj
        subst hj
        exact (hL n hr).2 d hd (hdt.trans h1)
      | update t' w σ => obtain ⟨j, hj⟩ := h3; rw [hop] at hj; exact absurd hj (by simp)
      | delete t' w => rw [TopOp, hop] at h3; exact absurd h3 (by simp)
    · exact absurd (hxs _ _ _ hx).1 (by simp)
  · intro o n hx d hd hdt
    rcases hf with ⟨h1, _, h3⟩ | ⟨col, hm, hxs, _⟩
    · obtain ⟨w, hop, hw⟩ := hdel o n hx
      cases s with
      | delete t' w' =>
        rw [TopOp, hop] at h3
        simp only [RowOp.del.injEq] at h3
        subst h3
        simp only [Stmt.table] at h1
        subst h1
        by_cases hmm : d.dep.m2mTable = none
        · intro tbl c k hk; rw [hmm] at hk; simp at hk
        · refine (hL d hd hdt hmm).1 o ?_ hw
          subst hx
          generalize hrs : db.rows t = rs at heff ⊢
          generalize (applyOp E t op db).1.rows t = rs' at heff
          cases heff with
          | del l1 l2 old he => rw [he]; simp
      | insert t' rs => obtain ⟨r, _, hr⟩ := h3; rw [hop] at hr; exact absurd hr (by simp)
      | update t' w σ => obtain ⟨j, hj⟩ := h3; rw [hop] at hj; exact absurd hj (by simp)
    · exact absurd (hxs _ _ _ hx).1 (by simp)

/-- Rows after a write: an old one, or the written one. -/
theorem effect_mem {rs rs' : List Row} {x : Option (Event × Row × Row)} (h : Effect rs rs' x) {r : Row} (hr : r ∈ rs') :
    r ∈ rs ∨ (x = some (.insert, r, r)) ∨ ∃ o ∈ rs, x = some (.update, o, r) := by
  cases h with
  | none => exact .inl hr
  | ins n =>
    rcases List.mem_append.1 hr with hr | hr
    · exact .inl hr
    · rw [List.mem_singleton] at hr; subst hr; exact .inr (.inl rfl)
  | upd l1 l2 old new he =>
    subst he
    simp only [List.mem_append, List.mem_cons] at hr ⊢
    rcases hr with hr | rfl | hr
    · exact .inl (.inl hr)
    · exact .inr (.inr ⟨old, .inr (.inl rfl), rfl⟩)
    · exact .inl (.inr (.inr hr))
  | del l1 l2 old he =>
    subst he
    simp only [List.mem_append, List.mem_cons] at hr ⊢
    rcases hr with hr | hr
    · exact .inl (.inl hr)
    · exact .inl (.inr (.inr hr))

theorem keysOk_step {E : Engine} {cb : Callback} {fr : Frame} {t : TableName} {db db' : Db}
    {x : Option (Event × Row × Row)} (h : WriteOk E cb fr t db db' x) : KeysOk cb db' := by
  intro p hp r hr
  by_cases ht : p.1 = t
  · rw [ht] at hr
    rcases effect_mem h.eff hr with hr | hx | ⟨o, ho, hx⟩
    · exact h.keys p hp r (ht ▸ hr)
    · exact h.insOk _ _ hx p hp ht
    · rw [h.keep o r hx p hp ht]
      exact h.keys p hp o (ht ▸ ho)
  · rw [h.other _ ht] at hr
    exact h.keys p hp r hr

/-- Legality survives the statement's own writes and those of triggers. -/
theorem legal_step {E : Engine} {cb : Callback} (hT : Ground E cb) {rank : String → Nat} {s : Stmt} {fr : Frame}
    {t : TableName} {op : RowOp} {ops : List RowOp} {db : Db} (hL : LegalStmt E cb db s)
    (h : ItemOk E rank s (.write fr t (op :: ops))) : LegalStmt E cb (applyOp E t op db).1 s := by
  obtain ⟨x, heff, hch, hupd, hins, hdel⟩ := applyOp_effect E t op db
  have hf := write_facts h hupd hins hdel
  -- links seen after the write were there before
  have hlink : ∀ d ∈ cb.deps, d.dep.other.table = s.table → ∀ o : Row, Unlinked d.dep db o →
      Unlinked d.dep (applyOp E t op db).1 o := by
    intro d hd hdt o hu tbl c k hm l hl
    by_cases ht : tbl = t
    · subst ht
      rcases hf with ⟨h1, _, _⟩ | ⟨col, hmg, hxs, _⟩
      · exact absurd (h1.trans hdt.symm) (hT.through d hd _ _ _ hm)
      · rcases effect_mem heff hl with hl | hx | ⟨o', ho', hx⟩
        · exact hu _ _ _ hm l hl
        · exact absurd (hxs _ _ _ hx).1 (by simp)
        · rw [(hxs _ _ _ hx).2 k (fun hc => hT.linkCol d hd _ _ _ hm (hc ▸ hmg))]
          exact hu _ _ _ hm o' ho'
    · rw [applyOp_rows_other E op db ht] at hl
      exact hu _ _ _ hm l hl
  cases s with
  | insert t' rs => exact fun r hr => ⟨(hL r hr).1, fun d hd hdt => hlink d hd hdt r ((hL r hr).2 d hd hdt)⟩
  | update t' w σ => exact hL
  | delete t' w =>
    intro d hd hdt hmm
    obtain ⟨h1, h2⟩ := hL d hd hdt hmm
    refine ⟨?_, h2⟩
    intro r hr hw
    apply hlink d hd hdt
    by_cases ht : t' = t
    · subst ht
      rcases hf with ⟨_, _, h3⟩ | ⟨col, hmg, hxs, _⟩
      · rw [TopOp] at h3
        rcases effect_mem heff hr with hr | hx | ⟨o', ho', hx⟩
        · exact h1 r hr hw
        · have := hins _ _ hx; rw [h3] at this; exact absurd this (by simp)
        · obtain ⟨i, σ, hop, _⟩ := hupd _ _ hx; rw [h3] at hop; exact absurd hop (by simp)
      · rcases effect_mem heff hr with hr | hx | ⟨o', ho', hx⟩
        · exact h1 r hr hw
        · exact absurd (hxs _ _ _ hx).1 (by simp)
        · have hc := (hxs _ _ _ hx).2
          have hwo : w o' = true := by rw [← h2 col hmg r o' hc]; exact hw
          have hu := h1 o' ho' hwo
          intro tbl c k hm l hl
          have hpk : (d.dep.other.table, d.dep.other.pk) ∈ cb.pks :=
            List.mem_cons_of_mem _ (List.mem_map.2 ⟨d, hd, rfl⟩)
          rw [hc d.dep.other.pk (fun h0 => hT.pks _ hpk (by rw [h0, hdt]; exact hmg))]
          exact hu tbl c k hm l hl
    · rw [applyOp_rows_other E op db ht] at hr
      exact h1 r hr hw

/-- What a property of a row may depend on to be tracked. -/
def TrackedProp (cb : Callback) (C : Db → Row → Prop) : Prop :=
  ∀ db db' r r', (∀ c ∈ cb.ownCols, r c = r' c) → r cb.model.pk = r' cb.model.pk →
    (∀ d ∈ cb.deps, seen d.reads (relatedRows d.dep db r) = seen d.reads (relatedRows d.dep db' r')) → C db r → C db' r'

/-- The invariant. -/
structure TrackInv (E : Engine) (cb : Callback) (rank : String → Nat) (s : Stmt) (C : Db → Row → Prop) (W : List Item)
    (db : Db) : Prop where
  legal : LegalStmt E cb db s
  keys : KeysOk cb db
  items : ∀ it ∈ W, ItemOk E rank s it
  good : ∀ r ∈ db.rows cb.model.table, Marked cb.model db r ∨ (∃ it ∈ W, Covers cb db r it) ∨ C db r

theorem TrackInv.of_rows {E : Engine} {cb : Callback} {s : Stmt} {db db' : Db}
    (hr : db'.rows = db.rows) (h : LegalStmt E cb db s) : LegalStmt E cb db' s := by
  cases s <;> simpa only [LegalStmt, Unlinked, hr] using h

theorem covers_rows {cb : Callback} {db db' : Db} (hr : db'.rows = db.rows) {r : Row} {it : Item} :
    Covers cb db' r it ↔ Covers cb db r it := by
  rcases it with _ | ⟨fr0, ch, a⟩
  · rfl
  · cases a <;> simp only [Covers, hr]

theorem related_rows {db db' : Db} (hr : db'.rows = db.rows) (d : Dep) (r : Row) :
    relatedRows d db' r = relatedRows d db r := by
  rcases hf : d.rel with f | f | (m | g) | (m | g) <;> simp only [relatedRows, hf, hr]

/-- Something `V` that is seen of a row, which changes only if the row will be marked. `K` is an assumption about the single writes. -/
structure Viewed (E : Engine) (cb : Callback) (K : TableName → Option (Event × Row × Row) → Prop) {X : Type _} (V : Db → Row → X) :
    Prop where
  rows : ∀ db db' r, db'.rows = db.rows → V db' r = V db r
  congr : ∀ db r r', r cb.model.pk = r' cb.model.pk → (∀ c ∈ cb.ownCols, r c = r' c) → V db r = V db r'
  step : ∀ {fr t db db' x} (r : Row), WriteOk E cb fr t db db' x → K t x →
    V db' r = V db r ∨ ∃ it ∈ newActs E fr t x, Covers cb db' r it

/-- A property of a row that depends on its own columns and on `V` only. -/
def TrackedBy (cb : Callback) {X : Type _} (V : Db → Row → X) (C : Db → Row → Prop) : Prop :=
  ∀ db db' r r', (∀ c ∈ cb.ownCols, r c = r' c) → r cb.model.pk = r' cb.model.pk → V db r = V db' r' → C db r → C db' r'

/-- The invariant, if a written row of the declaring model was there before with the same own columns, or will be marked, or has the property
(`hO`). -/
theorem followInvBy (E : Engine) (cb : Callback) (hT : Follows E cb) (rank : String → Nat) (hR : Ranked E rank) (s : Stmt)
    {K : TableName → Option (Event × Row × Row) → Prop} {X : Type _} {V : Db → Row → X} (hV : Viewed E cb K V)
    (hKs : ∀ {fr t op ops} {db : Db} {x}, ItemOk E rank s (.write fr t (op :: ops)) → (applyOp E t op db).2 = effectChange t x → K t x)
    (C : Db → Row → Prop) (hC : TrackedBy cb V C)
    (hO : ∀ {fr t op ops} {db : Db} {x}, ItemOk E rank s (.write fr t (op :: ops)) → WriteOk E cb fr t db (applyOp E t op db).1 x →
      (applyOp E t op db).2 = effectChange t x → ∀ r' ∈ (applyOp E t op db).1.rows cb.model.table,
      (∃ it ∈ newActs E fr t x, Covers cb (applyOp E t op db).1 r' it) ∨
      (∃ r ∈ db.rows cb.model.table, r cb.model.pk = r' cb.model.pk ∧ ∀ c ∈ cb.ownCols, r c = r' c) ∨ C (applyOp E t op db).1 r') :
    StepInv E (TrackInv E cb rank s C) where
  perm := by
    intro W W' db hp h
    exact ⟨h.legal, h.keys, fun it hit => h.items it (hp.mem_iff.2 hit), fun r hr => by
      rcases h.good r hr with h1 | ⟨it, h2, h3⟩ | h4
      · exact .inl h1
      · exact .inr (.inl ⟨it, hp.mem_iff.1 h2, h3⟩)
      · exact .inr (.inr h4)⟩
  writeNil := by
    intro fr t W db h
    refine ⟨h.legal, h.keys, fun it hit => h.items it (List.mem_cons_of_mem _ hit), fun r hr => ?_⟩
    rcases h.good r hr with h1 | ⟨it, h2, h3⟩ | h4
    · exact .inl h1
    · rcases List.mem_cons.1 h2 with rfl | h2
      · exact absurd h3 (by simp [Covers])
      · exact .inr (.inl ⟨it, h2, h3⟩)
    · exact .inr (.inr h4)
  writeOp := by
    intro fr t op ops W db h
    have hit := h.items _ (List.mem_cons_self ..)
    obtain ⟨x, hw, hch⟩ := writeOk_of hT.toGround h.legal h.keys hit
    have hacts : (applyOp E t op db).2.flatMap (E.fired fr) = newActs E fr t x := by rw [hch]; rfl
    refine ⟨legal_step hT.toGround h.legal hit, keysOk_step hw, ?_, ?_⟩
    · intro it hi
      rcases List.mem_cons.1 hi with rfl | hi
      · rcases hit with ⟨h1, h2, h3⟩ | ⟨col, hm, hops, hr⟩
        · exact .inl ⟨h1, h2, fun o ho => h3 o (List.mem_cons_of_mem _ ho)⟩
        · exact .inr ⟨col, hm, fun o ho => hops o (List.mem_cons_of_mem _ ho), hr⟩
      · rcases List.mem_append.1 hi with hi | hi
        · exact itemOk_fired hit it hi
        · exact h.items it (List.mem_cons_of_mem _ hi)
    · intro r' hr'
      rw [hacts]
      have new : (∃ it ∈ newActs E fr t x, Covers cb (applyOp E t op db).1 r' it) →
          ∃ it ∈ Item.write fr t ops :: (newActs E fr t x ++ W), Covers cb (applyOp E t op db).1 r' it := by
        rintro ⟨it, hi, hc⟩
        exact ⟨it, List.mem_cons_of_mem _ (List.mem_append_left _ hi), hc⟩
      rcases hO hit hw hch r' hr' with h1 | ⟨r, hr, hpk, hown⟩ | h1
      · exact .inr (.inl (new h1))
      · rcases h.good r hr with h2 | ⟨it, h2, h3⟩ | h4
        · left
          unfold Marked at h2 ⊢
          rw [hw.dirty, ← hpk]; exact h2
        · rcases covers_step hT hw hpk hown h3 with h5 | h5
          · rcases List.mem_cons.1 h2 with rfl | h2
            · exact absurd h5 (by simp [Covers])
            · exact .inr (.inl ⟨it, List.mem_cons_of_mem _ (List.mem_append_right _ h2), h5⟩)
          · exact .inr (.inl (new h5))
        · rcases hV.step r' hw (hKs hit hch) with h5 | h5
          · exact .inr (.inr (hC _ _ _ _ hown hpk ((hV.congr db r r' hpk hown).trans h5.symm) h4))
          · exact .inr (.inl (new h5))
      · exact .inr (.inr h1)
  markValues := by
    intro fr ch ct s' c q W db h
    refine ⟨TrackInv.of_rows rfl h.legal, h.keys, fun it hit => h.items it (List.mem_cons_of_mem _ hit), fun r hr => ?_⟩
    rcases h.good r hr with h1 | ⟨it, h2, h3⟩ | h4
    · left; unfold Marked at h1 ⊢; simp only [Db.addMarks_dirty, List.mem_append]; exact .inl h1
    · rcases List.mem_cons.1 h2 with rfl | h2
      · obtain ⟨e1, e2⟩ := h3
        left; unfold Marked; simp [e1, e2]
      · exact .inr (.inl ⟨it, h2, (covers_rows rfl).2 h3⟩)
    · exact .inr (.inr (hC _ _ _ _ (fun _ _ => rfl) rfl (hV.rows _ _ _ (Db.addMarks_rows ..)).symm h4))
  markSelect := by
    intro fr ch ct sel t k s' c q W db h
    refine ⟨TrackInv.of_rows rfl h.legal, h.keys, fun it hit => h.items it (List.mem_cons_of_mem _ hit), fun r hr => ?_⟩
    rcases h.good r hr with h1 | ⟨it, h2, h3⟩ | h4
    · left; unfold Marked at h1 ⊢; simp only [Db.addMarks_dirty, List.mem_append]; exact .inl h1
    · rcases List.mem_cons.1 h2 with rfl | h2
      · left
        unfold Marked
        simp only [Db.addMarks_dirty, List.mem_append]
        right
        obtain ⟨e1, ⟨e2, e3, _, e4⟩ | ⟨_, y, hy, hyk, hys⟩⟩ := h3
        · exact mem_selectMarks.2 ⟨r, e2 ▸ hr, e4, by rw [e1, e3]⟩
        · exact mem_selectMarks.2 ⟨y, hy, hyk, by rw [e1, hys]⟩
      · exact .inr (.inl ⟨it, h2, (covers_rows rfl).2 h3⟩)
    · exact .inr (.inr (hC _ _ _ _ (fun _ _ => rfl) rfl (hV.rows _ _ _ (Db.addMarks_rows ..)).symm h4))
  update := by
    intro fr ch u W db _ h
    have hit := h.items _ (List.mem_cons_self ..)
    refine ⟨h.legal, h.keys, ?_, fun r hr => ?_⟩
    · intro it hi
      rcases List.mem_append.1 hi with hi | hi
      · exact itemOk_update hR hit it hi
      · exact h.items it (List.mem_cons_of_mem _ hi)
    · rcases h.good r hr with h1 | ⟨it, h2, h3⟩ | h4
      · exact .inl h1
      · rcases List.mem_cons.1 h2 with rfl | h2
        · exact absurd h3 (by simp [Covers])
        · exact .inr (.inl ⟨it, List.mem_append_right _ h2, h3⟩)
      · exact .inr (.inr h4)

theorem trackInvBy (E : Engine) (cb : Callback) (hT : Tracks E cb) (rank : String → Nat) (hR : Ranked E rank) (s : Stmt)
    {K : TableName → Option (Event × Row × Row) → Prop} {X : Type _} {V : Db → Row → X} (hV : Viewed E cb K V)
    (hKs : ∀ {fr t op ops} {db : Db} {x}, ItemOk E rank s (.write fr t (op :: ops)) → (applyOp E t op db).2 = effectChange t x → K t x)
    (C : Db → Row → Prop) (hC : TrackedBy cb V C) : StepInv E (TrackInv E cb rank s C) :=
  followInvBy E cb hT rank hR s hV hKs C hC fun _ hw _ _ hr' => (own_step hT hw hr').imp id .inl

theorem viewed_seen {E : Engine} {cb : Callback} (hT : Follows E cb) :
    Viewed E cb (fun _ _ => True) fun db r => cb.deps.map fun d => seen d.reads (relatedRows d.dep db r) where
  rows db db' r hr := by simp only [related_rows hr]
  congr db r r' hpk hown := by
    refine List.map_congr_left fun d hd => ?_
    have hcg : relatedRows d.dep db r = relatedRows d.dep db r' := by
      refine related_congr (hT.notBackGeneric hd) ?_ ?_ db
      · rw [hT.this d hd]; exact hpk
      · intro c hc
        apply hown
        simp only [Callback.ownCols, List.cons_append, List.mem_cons, List.mem_append, List.mem_flatMap]
        exact .inr (.inr ⟨d, hd, hc⟩)
    rw [hcg]
  step {fr t db db' x} r hw _ := by
    by_cases hall : ∀ d ∈ cb.deps, seen d.reads (relatedRows d.dep db' r) = seen d.reads (relatedRows d.dep db r)
    · exact .inl (List.map_congr_left hall)
    · right
      have : ∃ d, d ∈ cb.deps ∧ ¬ seen d.reads (relatedRows d.dep db' r) = seen d.reads (relatedRows d.dep db r) := by
        apply Classical.byContradiction
        intro hn
        apply hall
        intro d hd
        apply Classical.byContradiction
        exact fun hne => hn ⟨d, hd, hne⟩
      obtain ⟨d, hd, hne⟩ := this
      rcases related_step hT hw hd r with h5 | h5
      · exact absurd h5 hne
      · exact h5

theorem trackInv (E : Engine) (cb : Callback) (hT : Tracks E cb) (rank : String → Nat) (hR : Ranked E rank) (s : Stmt)
    (C : Db → Row → Prop) (hC : TrackedProp cb C) : StepInv E (TrackInv E cb rank s C) := by
  refine trackInvBy E cb hT rank hR s (viewed_seen hT) (fun _ _ => trivial) C ?_
  intro db db' r r' hown hpk hV
  exact hC db db' r r' hown hpk (fun d hd => (List.map_inj_left.1 hV) d hd)

/-- One statement: rows that are not marked afterwards satisfy `C` if all unmarked ones did before. -/
theorem track_exec {E : Engine} {cb : Callback} (hT : Tracks E cb) (hN : NoReentry E) {C : Db → Row → Prop}
    (hC : TrackedProp cb C) {fuel : Nat} {s : Stmt} {db db' : Db} (he : E.exec fuel s db = .ok db')
    (hL : LegalStmt E cb db s) (hK : KeysOk cb db)
    (hg : ∀ r ∈ db.rows cb.model.table, Marked cb.model db r ∨ C db r) :
    KeysOk cb db' ∧ ∀ r ∈ db'.rows cb.model.table, Marked cb.model db' r ∨ C db' r := by
  obtain ⟨rank, hR⟩ := hN.ranked
  have := (trackInv E cb hT rank hR s C hC).exec he
    ⟨hL, hK, itemOk_start E rank s db, fun r hr => (hg r hr).imp id .inr⟩
  refine ⟨this.keys, fun r hr => ?_⟩
  rcases this.good r hr with h1 | ⟨it, h2, _⟩ | h4
  · exact .inl h1
  · simp at h2
  · exact .inr h4

/-- The same for a history of statements. -/
theorem track_run {E : Engine} {cb : Callback} (hT : Tracks E cb) (hN : NoReentry E) {C : Db → Row → Prop}
    (hC : TrackedProp cb C) {fuel : Nat} : ∀ (ss : List Stmt) (db : Db), LegalRun E cb fuel ss db → KeysOk cb db →
    (∀ r ∈ db.rows cb.model.table, Marked cb.model db r ∨ C db r) →
    KeysOk cb (E.run fuel ss db) ∧
      ∀ r ∈ (E.run fuel ss db).rows cb.model.table, Marked cb.model (E.run fuel ss db) r ∨ C (E.run fuel ss db) r
  | [], db, _, hK, hg => ⟨hK, hg⟩
  | s :: ss, db, hL, hK, hg => by
    obtain ⟨hL1, hL2⟩ := hL
    simp only [Engine.run]
    cases he : E.exec fuel s db with
    | ok db' =>
      rw [he] at hL2
      obtain ⟨h1, h2⟩ := track_exec hT hN hC he hL1 hK hg
      exact track_run hT hN hC ss db' hL2 h1 h2
    | error e =>
      rw [he] at hL2
      exact track_run hT hN hC ss db hL2 hK hg

end Denorm
