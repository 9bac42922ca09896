import Verif.Lemmas.TxnFar
import Verif.Lemmas.Trace
/-!
# Foreign key constraints on MySQL keep references out of reach of other sessions
-/
namespace Denorm

/-! ## Where the values of a foreign key column come from -/

/-- The statement leaves column `c` of table `t` alone, unless it inserts. -/
def Stays (t : TableName) (c : Col) : Stmt → Prop
  | .update t' _ σ => t' = t → ∀ x r, σ x r c = r c
  | _ => True

theorem kept_of {E : Engine} {rank : String → Nat} {s : Stmt} {t : TableName} {c : Col} (hs : Stays t c s) (hm : ¬ Managed E t c)
    {fr : Frame} {op : RowOp} {ops : List RowOp} {db : Db} {x : Option (Event × Row × Row)}
    (h : ItemOk E rank s (.write fr t (op :: ops))) (hch : (applyOp E t op db).2 = effectChange t x) : ∀ o n, x = some (.update, o, n) → n c = o c := by
  obtain ⟨x', _, hch', hupd, hins, hdel⟩ := applyOp_effect E t op db
  have : x = x' := effectChange_inj (hch.symm.trans hch')
  subst this
  intro o n hx
  rcases write_facts h hupd hins hdel with ⟨h1, _, h3⟩ | ⟨col, hmc, hxs, _⟩
  · obtain ⟨i, σ, hop, hn⟩ := hupd o n hx
    cases s with
    | update t' w σ' =>
      obtain ⟨j, hj⟩ := h3
      rw [hop] at hj
      simp only [RowOp.upd.injEq] at hj
      rw [hn, hj.2]
      exact hs h1.symm _ _
    | insert t' rs => obtain ⟨r, _, hr⟩ := h3; rw [hop] at hr; exact absurd hr (by simp)
    | delete t' w => rw [TopOp, hop] at h3; exact absurd h3 (by simp)
  · refine (hxs _ _ _ hx).2 _ ?_
    intro hc
    exact hm (hc ▸ hmc)

/-- Every row of `rows'` is in `rows`, as far as the columns `keep` and `c` go, or its value in `c` is one of `vs`. -/
def From (keep : List Col) (c : Col) (vs : Val → Prop) (rows rows' : List Row) : Prop :=
  ∀ r ∈ rows', (∃ r0 ∈ rows, (∀ x ∈ keep, r0 x = r x) ∧ r0 c = r c) ∨ vs (r c)

theorem From.refl (keep : List Col) (c : Col) (vs : Val → Prop) (rows : List Row) : From keep c vs rows rows :=
  fun r hr => .inl ⟨r, hr, fun _ _ => rfl, rfl⟩

theorem From.trans {keep : List Col} {c : Col} {vs vs' : Val → Prop} {a b d : List Row} (h : From keep c vs a b) (h' : From keep c vs' b d) :
    From keep c (fun v => vs v ∨ vs' v) a d := by
  intro r hr
  rcases h' r hr with ⟨r1, h1, h2, h3⟩ | h1
  · rcases h r1 h1 with ⟨r0, g1, g2, g3⟩ | g1
    · exact .inl ⟨r0, g1, fun x hx => (g2 x hx).trans (h2 x hx), g3.trans h3⟩
    · exact .inr (.inl (h3 ▸ g1))
  · exact .inr (.inr h1)

/-- One write: a foreign key column gets a new value only by a change for which the constraint is checked. -/
theorem from_step {E : Engine} {rank : String → Nat} {s : Stmt} {t : TableName} {keep : List Col} (hs : ∀ x ∈ keep, Stays t x s)
    (hm : ∀ x ∈ keep, ¬ Managed E t x) {fr : Frame} {t' : TableName} {op : RowOp} {ops : List RowOp} {db : Db}
    (h : ItemOk E rank s (.write fr t' (op :: ops))) (c : Col) {vs : Val → Prop}
    (hv : ∀ ch ∈ (applyOp E t' op db).2, ch.table = t → (ch.event = .insert ∨ (ch.event = .update ∧ ch.old c ≠ ch.new c)) → vs (ch.new c)) :
    From keep c vs (db.rows t) ((applyOp E t' op db).1.rows t) := by
  by_cases ht : t = t'
  · subst ht
    obtain ⟨x, heff, hch, -⟩ := applyOp_effect E t op db
    have hk : ∀ y ∈ keep, ∀ o n, x = some (.update, o, n) → n y = o y := fun y hy => kept_of (hs y hy) (hm y hy) h hch
    rw [hch] at hv
    generalize (applyOp E t op db).1.rows t = rs' at heff
    generalize db.rows t = rs at heff
    intro r hr
    cases heff with
    | none => exact .inl ⟨r, hr, fun _ _ => rfl, rfl⟩
    | ins n =>
      rcases List.mem_append.1 hr with hr | hr
      · exact .inl ⟨r, hr, fun _ _ => rfl, rfl⟩
      · rw [List.mem_singleton] at hr
        subst hr
        exact .inr (hv ⟨t, .insert, r, r⟩ (by simp [effectChange]) rfl (.inl rfl))
    | upd l1 l2 old new hrs =>
      subst hrs
      rcases List.mem_append.1 hr with hr | hr
      · exact .inl ⟨r, List.mem_append_left _ hr, fun _ _ => rfl, rfl⟩
      · rcases List.mem_cons.1 hr with rfl | hr
        · by_cases hc : old c = r c
          · exact .inl ⟨old, List.mem_append_right _ (List.mem_cons_self ..), fun y hy => (hk y hy old r rfl).symm, hc⟩
          · exact .inr (hv ⟨t, .update, old, r⟩ (by simp [effectChange]) rfl (.inr ⟨rfl, hc⟩))
        · exact .inl ⟨r, List.mem_append_right _ (List.mem_cons_of_mem _ hr), fun _ _ => rfl, rfl⟩
    | del l1 l2 old hrs =>
      subst hrs
      rcases List.mem_append.1 hr with hr | hr
      · exact .inl ⟨r, List.mem_append_left _ hr, fun _ _ => rfl, rfl⟩
      · exact .inl ⟨r, List.mem_append_right _ (List.mem_cons_of_mem _ hr), fun _ _ => rfl, rfl⟩
  · have hrows : (applyOp E t' op db).1.rows t = db.rows t := by
      cases op with
      | ins n => simp [applyOp, Db.setRows, ht]
      | upd i σ => simp only [applyOp]; split <;> simp [Db.setRows, ht]
      | del w => simp only [applyOp]; split <;> simp [Db.setRows, ht]
    rw [hrows]
    exact From.refl _ _ _ _

theorem fromInv {E : Engine} {rank : String → Nat} (hR : Ranked E rank) {s : Stmt} {t : TableName} {keep : List Col} (hs : ∀ x ∈ keep, Stays t x s)
    (hm : ∀ x ∈ keep, ¬ Managed E t x) (c : Col) (vs : Val → Prop) (rows : List Row) :
    StepInvQ E (fun ch _ => ch.table = t → (ch.event = .insert ∨ (ch.event = .update ∧ ch.old c ≠ ch.new c)) → vs (ch.new c))
      fun W db => (∀ it ∈ W, ItemOk E rank s it) ∧ From keep c vs rows (db.rows t) where
  perm := by
    rintro W W' db hp ⟨h1, h2⟩
    exact ⟨fun it hit => h1 it (hp.mem_iff.2 hit), h2⟩
  writeNil := by
    rintro fr t W db ⟨h1, h2⟩
    exact ⟨fun it hit => h1 it (List.mem_cons_of_mem _ hit), h2⟩
  writeOp := by
    rintro fr t' op ops W db hQ ⟨h1, h2⟩
    have hit := h1 _ (List.mem_cons_self ..)
    refine ⟨?_, ?_⟩
    · intro it hi
      rcases List.mem_cons.1 hi with rfl | hi
      · rcases hit with ⟨g1, g2, g3⟩ | ⟨col, hmc, hops, hr⟩
        · exact .inl ⟨g1, g2, fun o ho => g3 o (List.mem_cons_of_mem _ ho)⟩
        · exact .inr ⟨col, hmc, fun o ho => hops o (List.mem_cons_of_mem _ ho), hr⟩
      · rcases List.mem_append.1 hi with hi | hi
        · exact itemOk_fired hit it hi
        · exact h1 it (List.mem_cons_of_mem _ hi)
    · have := h2.trans (from_step hs hm hit c hQ)
      intro r hr
      rcases this r hr with h3 | h3 | h3
      · exact .inl h3
      · exact .inr h3
      · exact .inr h3
  markValues := by
    rintro fr ch ct s c q W db ⟨h1, h2⟩
    exact ⟨fun it hit => h1 it (List.mem_cons_of_mem _ hit), h2⟩
  markSelect := by
    rintro fr ch ct sel t k s c q W db ⟨h1, h2⟩
    exact ⟨fun it hit => h1 it (List.mem_cons_of_mem _ hit), h2⟩
  update := by
    rintro fr ch u W db _ ⟨h1, h2⟩
    refine ⟨fun it hit => ?_, h2⟩
    rcases List.mem_append.1 hit with hit | hit
    · exact itemOk_update hR (h1 _ (List.mem_cons_self ..)) it hit
    · exact h1 it (List.mem_cons_of_mem _ hit)

/-- A statement takes a lock on whatever it makes a foreign key refer to. -/
theorem from_exec {A : App} {S : Schema} (hN : NoReentry A.engine) {s : Stmt} {db v : Db} (he : A.exec s db = .ok v) {t t' : TableName} {c : Col}
    (hp : (c, t') ∈ S.refs t) {keep : List Col} (hs : ∀ x ∈ keep, Stays t x s) (hm : ∀ x ∈ keep, ¬ Managed A.engine t x) :
    From keep c (fun κ => (t', κ) ∈ (locksOf S (A.changesOf s db)).refs) (db.rows t) (v.rows t) := by
  obtain ⟨rank, hR⟩ := hN.ranked
  refine ((fromInv hR hs hm c (fun κ => (t', κ) ∈ (locksOf S (A.changesOf s db)).refs) (db.rows t)).trace
    (Engine.trace_of_drain _ _ _ _ (engine_of_exec he)) (fun q hq ht hev => ?_) ⟨itemOk_start _ rank s db, From.refl _ _ _ _⟩).2
  simp only [locksOf, App.changesOf, Engine.changesOf, List.mem_flatMap, List.mem_map]
  refine ⟨q.1, ⟨q, hq, rfl⟩, (c, t'), by rw [ht]; exact hp, ?_⟩
  rw [if_pos hev]
  exact List.mem_singleton.2 rfl

/-! ## One dependency at a time -/

/-- The callback, as far as one of its dependencies is concerned. -/
def Callback.only (cb : Callback) (d : DepRead) : Callback := { cb with deps := [d] }

theorem ownCols_only {cb : Callback} {d : DepRead} (hd : d ∈ cb.deps) : ∀ c ∈ (cb.only d).ownCols, c ∈ cb.ownCols := by
  intro c hc
  simp only [Callback.ownCols, Callback.only, List.cons_append, List.mem_cons, List.mem_append, List.mem_flatMap, List.not_mem_nil, or_false] at hc ⊢
  rcases hc with h | h | ⟨d', rfl, h⟩
  · exact .inl h
  · exact .inr (.inl h)
  · exact .inr (.inr ⟨d', hd, h⟩)

theorem pks_only {cb : Callback} {d : DepRead} (hd : d ∈ cb.deps) : ∀ p ∈ (cb.only d).pks, p ∈ cb.pks := by
  intro p hp
  simp only [Callback.pks, Callback.only, List.map_cons, List.map_nil, List.mem_cons, List.mem_map, List.not_mem_nil, or_false] at hp ⊢
  rcases hp with h | h
  · exact .inl h
  · exact .inr ⟨d, hd, h.symm⟩

theorem tracks_only {E : Engine} {cb : Callback} (hT : Tracks E cb) {d : DepRead} (hd : d ∈ cb.deps) : Tracks E (cb.only d) := by
  have mem : ∀ d' ∈ (cb.only d).deps, d' ∈ cb.deps := fun d' h => by
    rw [List.mem_singleton.1 h]
    exact hd
  refine ⟨⟨⟨fun d' h => hT.this d' (mem d' h), fun d' h => hT.through d' (mem d' h), fun p h => hT.pks p (pks_only hd p h),
    fun d' h => hT.linkCol d' (mem d' h)⟩, fun d' h => hT.deps d' (mem d' h)⟩, ?_, hT.selfIns⟩
  obtain ⟨tr, h1, h2, h3, h4, h5⟩ := hT.selfUpd
  exact ⟨tr, h1, h2, h3, fun c hc => h4 c (ownCols_only hd c hc), h5⟩

theorem keysOk_only {cb : Callback} {db : Db} (h : KeysOk cb db) {d : DepRead} (hd : d ∈ cb.deps) : KeysOk (cb.only d) db :=
  fun p hp => h p (pks_only hd p hp)

theorem legal_only {E : Engine} {cb : Callback} {db : Db} {s : Stmt} (h : LegalStmt E cb db s) {d : DepRead} (hd : d ∈ cb.deps) : LegalStmt E (cb.only d) db s := by
  have mem : ∀ d' ∈ (cb.only d).deps, d' ∈ cb.deps := fun d' h => by
    rw [List.mem_singleton.1 h]
    exact hd
  cases s with
  | insert t rs => exact fun r hr => ⟨fun p hp => (h r hr).1 p (pks_only hd p hp), fun d' h' => (h r hr).2 d' (mem d' h')⟩
  | update t w σ => exact fun p hp => h p (pks_only hd p hp)
  | delete t w => exact fun d' h' => h d' (mem d' h')

theorem keyed_only {S : Schema} {cb : Callback} {d : DepRead} {db db' : Db} {r r' : Row} :
    (cb.only d).keyed S db r = (cb.only d).keyed S db' r' ↔ keyedView S d db r = keyedView S d db' r' := by
  simp [Callback.keyed, Callback.only]

/-! ## The invariant -/

/-- The session marks the committed instances that its changes concern. -/
def Near (S : Schema) (cb : Callback) (cur : Db) (T : Txn) (d : DepRead) : Prop :=
  ∀ r ∈ cur.rows cb.model.table, OwnMark cb T r ∨ Gone cb T r ∨ Unmoved S d T.base T.view cur r

/-- It even marks those it cannot see. -/
def FarAt (S : Schema) (cb : Callback) (cur : Db) (T : Txn) (d : DepRead) : Prop := ∀ r, OwnMark cb T r ∨ Unmoved S d T.base T.view cur r

/-- What has been made a reference since `rows` is locked by `refs`. -/
def Held (S : Schema) (p : Reference) (refs : Val → Prop) (cur cur' : Db) : Prop :=
  From (S.key p.table :: p.keep) p.col refs (cur.rows p.table) (cur'.rows p.table)

theorem reference_forward {d : Dep} {f : Field} (h : d.rel = .forward f) : d.reference = some ⟨d.this.table, [], f.column, d.other⟩ := by
  simp [Dep.reference, h]

theorem reference_m2m {d : Dep} {tbl : TableName} {c k : Col} (h : d.m2mTable = some (tbl, c, k)) : d.reference = some ⟨tbl, [c], k, d.other⟩ := by
  rcases hf : d.rel with f | f | (m | g) | (m | g) <;> simp_all [Dep.reference, Dep.m2mTable]

/-- Rows the session has not locked are the same in its view. -/
theorem unlocked_same {S : Schema} {cb : Callback} {cur : Db} {T : Txn} (hs : SessionOk S cb cur T) {o : Model} (hk : S.key o.table = o.pk) {κ : Val}
    (hl : (o.table, κ) ∉ T.locks.rows) {β : Type _} (g : Row → β) (x : β) :
    x ∈ ((T.view.rows o.table).filter fun r => Val.sqlEq (r o.pk) κ).map g ↔ x ∈ ((T.base.rows o.table).filter fun r => Val.sqlEq (r o.pk) κ).map g := by
  have := hs.outside _ _ hl
  rw [hk] at this
  simp only [List.mem_map, List.mem_filter, Val.sqlEq_iff]
  constructor
  · rintro ⟨r, ⟨h1, h2⟩, h3⟩
    exact ⟨r, ⟨(this r h2.1).2 h1, h2⟩, h3⟩
  · rintro ⟨r, ⟨h1, h2⟩, h3⟩
    exact ⟨r, ⟨(this r h2.1).1 h1, h2⟩, h3⟩

theorem far_held {S : Schema} {cb : Callback} {cur cur' : Db} {T : Txn} {d : DepRead} (hs : SessionOk S cb cur T)
    (hk : ∀ p ∈ d.dep.reference, S.key p.target.table = p.target.pk)
    (hh : ∀ p ∈ d.dep.reference, Held S p (fun κ => (p.target.table, κ) ∉ T.locks.rows) cur cur') (h : FarAt S cb cur T d) : FarAt S cb cur' T d := by
  intro r
  refine (h r).imp id fun hu => ?_
  cases hm : d.dep.m2mTable with
  | none => exact unmoved_any hm hu
  | some q =>
    obtain ⟨tbl, c, k⟩ := q
    simp only [Unmoved, hm] at hu ⊢
    refine ⟨hu.1, fun l hl x => ?_⟩
    have hp := reference_m2m hm
    have hl' := List.mem_filter.1 hl
    rcases hh _ hp l hl'.1 with ⟨l0, h1, h2, h3⟩ | h1
    · simp only at h3
      have := hu.2 l0 (List.mem_filter.2 ⟨h1, by rw [h2 c (by simp)]; exact hl'.2⟩) x
      rwa [h3] at this
    · exact unlocked_same hs (hk _ hp) h1 _ x

theorem near_held {S : Schema} {cb : Callback} {cur cur' : Db} {T : Txn} {d : DepRead} {f : Field} (hf : d.dep.rel = .forward f) (ht : d.dep.this = cb.model)
    (hkey : S.key cb.model.table = cb.model.pk) (hs : SessionOk S cb cur T) (hk : ∀ p ∈ d.dep.reference, S.key p.target.table = p.target.pk)
    (hh : ∀ p ∈ d.dep.reference, Held S p (fun κ => (p.target.table, κ) ∉ T.locks.rows) cur cur') (h : Near S cb cur T d) : Near S cb cur' T d := by
  intro r hr
  have hp := reference_forward hf
  have hm : d.dep.m2mTable = none := by simp [Dep.m2mTable, hf]
  rcases hh _ hp r (by rw [ht]; exact hr) with ⟨r0, h1, h2, h3⟩ | h1
  · have hpk : r0 cb.model.pk = r cb.model.pk := by
      have := h2 (S.key d.dep.this.table) (List.mem_cons_self ..)
      rwa [ht, hkey] at this
    rw [ht] at h1
    rcases h r0 h1 with h4 | ⟨h4, h5⟩ | h4
    · exact .inl (by unfold OwnMark at h4 ⊢; rw [← hpk]; exact h4)
    · exact .inr (.inl ⟨by rw [← hpk]; exact h4, fun v hv => by rw [← hpk]; exact h5 v hv⟩)
    · refine .inr (.inr ?_)
      simp only [Unmoved, hm, relatedRows, hf] at h4 ⊢
      simp only at h3
      rwa [h3] at h4
  · refine .inr (.inr ?_)
    simp only [Unmoved, hm, relatedRows, hf, Dep.otherTable]
    exact unlocked_same hs (hk _ hp) h1 _

/-- What holds between moves. -/
structure Tied (S : Schema) (cb : Callback) (X : DbServer) : Prop where
  ok : ServerOk S cb X
  refs : ∀ (i j : Nat) T U, i ≠ j → X.sessions[i]? = some (some T) → X.sessions[j]? = some (some U) → ∀ l ∈ T.locks.rows, l ∉ U.locks.refs
  came : ∀ (j : Nat) T, X.sessions[j]? = some (some T) → ∀ d ∈ cb.deps, ∀ p ∈ d.dep.reference,
    Held S p (fun κ => (p.target.table, κ) ∈ T.locks.refs) T.base T.view
  near : ∀ (j : Nat) T, X.sessions[j]? = some (some T) → ∀ d ∈ cb.deps, Near S cb X.db T d
  far : ∀ (j : Nat) T, X.sessions[j]? = some (some T) → ∀ d ∈ cb.deps, d.dep.ownKeys = [] → FarAt S cb X.db T d

theorem Tied.heedful {S : Schema} {cb : Callback} {cur : Db} {T : Txn} (h : ∀ d ∈ cb.deps, Near S cb cur T d) {r : Row} (hr : r ∈ cur.rows cb.model.table) :
    Heedful S cb T cur r := by
  by_cases h1 : OwnMark cb T r ∨ Gone cb T r
  · exact h1.imp id .inl
  · exact .inr (.inr fun d hd => (h d hd r hr).resolve_left (fun h2 => h1 (.inl h2)) |>.resolve_left fun h2 => h1 (.inr h2))

theorem ownKeys_cases (d : Dep) : d.ownKeys = [] ∨ ∃ f, d.rel = .forward f := by
  rcases hf : d.rel with f | f | (m | g) | (m | g) <;> simp [Dep.ownKeys, hf]

theorem far_near {S : Schema} {cb : Callback} {cur : Db} {T : Txn} {d : DepRead} (h : FarAt S cb cur T d) : Near S cb cur T d :=
  fun r _ => (h r).imp id .inr

/-- The foreign keys in what a session sees come from the committed state, or the session has locked what they refer to. -/
theorem sight_held {S : Schema} {cb : Callback} {X : DbServer} (hX : Tied S cb X) (i : Nat) {d : DepRead} (hd : d ∈ cb.deps) {p : Reference}
    (hp : p ∈ d.dep.reference) : Held S p (fun κ => (p.target.table, κ) ∈ (X.sight S i).2.refs) X.db (X.sight S i).1 := by
  rcases sight_cases X S i with ⟨T, h1, h2⟩ | h2
  · rw [h2]
    have hs := hX.ok.sessions i T h1
    intro r hr
    rcases mem_merge (hs.mergeable hX.ok.keys p.table) hr with ⟨h3, _⟩ | ⟨h3, h4⟩
    · exact .inl ⟨r, h3, fun _ _ => rfl, rfl⟩
    · rcases hX.came i T h1 d hd p hp r h3 with ⟨r0, g1, g2, g3⟩ | g1
      · exact .inl ⟨r0, (h4 r0 (g2 _ (List.mem_cons_self ..))).1 g1, g2, g3⟩
      · exact .inr g1
  · rw [h2]
    exact From.refl _ _ _ _

/-- The row has the contents of a committed row and sees the same. -/
def CopiedOnly (S : Schema) (cb : Callback) (cur db : Db) (r : Row) : Prop :=
  ∃ rc ∈ cur.rows cb.model.table, rc cb.model.pk = r cb.model.pk ∧ (∀ c ∈ cb.ownCols, rc c = r c) ∧ cb.keyed S db r = cb.keyed S cur rc

theorem copiedOnly_tracked (S : Schema) (cb : Callback) (cur : Db) : TrackedBy cb (cb.keyed S) (CopiedOnly S cb cur) := by
  rintro db db' r r' hown hpk hv ⟨rc, h0, h1, h2, h3⟩
  exact ⟨rc, h0, h1.trans hpk, fun c hc => (h2 c hc).trans (hown c hc), hv.symm.trans h3⟩

section
variable {A : App} {S : Schema} {D : List Denorm} {om : OrmModel} {cb : Callback} {X : DbServer}

theorem sight_near (hX : Tied S cb X) (hT : Tracks A.engine cb) (hk : S.key cb.model.table = cb.model.pk) (i : Nat) {d : DepRead} (hd : d ∈ cb.deps) :
    ∃ added, (X.sight S i).1.dirty = X.db.dirty ++ added ∧ ∀ r ∈ (X.sight S i).1.rows cb.model.table,
      (⟨cb.model.ct, r cb.model.pk⟩ : Mark) ∈ added ∨ CopiedOnly S (cb.only d) X.db (X.sight S i).1 r := by
  rcases sight_cases X S i with ⟨T, h1, h2⟩ | h2
  · rw [h2]
    have h := hX.ok.sessions i T h1
    have hM := h.mergeable hX.ok.keys
    refine ⟨T.added, rfl, fun r hr => ?_⟩
    have key : ∀ rc ∈ X.db.rows cb.model.table, rc cb.model.pk = r cb.model.pk → (∀ c ∈ cb.ownCols, rc c = r c) → ¬ Gone cb T rc →
        (⟨cb.model.ct, r cb.model.pk⟩ : Mark) ∈ T.added ∨ CopiedOnly S (cb.only d) X.db (Db.merge S T.base T.view X.db) r := by
      intro rc hrc hp ho hng
      rcases hX.near i T h1 d hd rc hrc with h1 | h1 | h1
      · exact .inl (by unfold OwnMark at h1; rw [← hp]; exact h1)
      · exact absurd h1 hng
      · refine .inr ⟨rc, hrc, hp, fun c hc => ho c (ownCols_only hd c hc), keyed_only.2 ?_⟩
        rw [← keyed_only (cb := cb) |>.1 ((viewed_keyed S (tracks_only hT hd)).congr (Db.merge S T.base T.view X.db) rc r hp fun c hc => ho c (ownCols_only hd c hc))]
        exact keyedView_merge hM h1
    by_cases hl : (cb.model.table, r cb.model.pk) ∈ T.locks.rows
    · have hin := h.inside _ _ hl
      have hrv := (merge_sameAt_view (hM cb.model.table) hin r (by rw [hk])).1 hr
      rcases h.own r hrv hl with h1 | ⟨r0, h0, hp, ho⟩
      · exact .inl h1
      · exact key r0 ((hin r0 (by rw [hk]; exact hp)).1 h0) hp ho fun hg => hg.2 r hrv hp.symm
    · have hrc := (merge_sameAt_cur (hM cb.model.table) (h.outside _ _ hl) r (by rw [hk])).1 hr
      exact key r hrc rfl (fun _ _ => rfl) fun hg => hl hg.1
  · rw [h2]
    exact ⟨[], by simp, fun r hr => .inr ⟨r, hr, rfl, fun _ _ => rfl, rfl⟩⟩

theorem sight_far (hX : Tied S cb X) (i : Nat) {d : DepRead} (hd : d ∈ cb.deps) (ho : d.dep.ownKeys = []) (r : Row) :
    ∃ added, (X.sight S i).1.dirty = X.db.dirty ++ added ∧
      ((⟨cb.model.ct, r cb.model.pk⟩ : Mark) ∈ added ∨ (cb.only d).keyed S (X.sight S i).1 r = (cb.only d).keyed S X.db r) := by
  rcases sight_cases X S i with ⟨U, h1, h2⟩ | h2
  · rw [h2]
    exact ⟨U.added, rfl, (hX.far i U h1 d hd ho r).imp id fun h => keyed_only.2 (keyedView_merge ((hX.ok.sessions i U h1).mergeable hX.ok.keys) h)⟩
  · rw [h2]
    exact ⟨[], by simp, .inr rfl⟩

/-- Locks on MySQL that do not exclude each other. -/
theorem free_mysql {a b : Locks} (h : Locks.conflict .mysql a b = false) : (∀ l ∈ a.rows, l ∉ b.refs) ∧ ∀ l ∈ a.refs, l ∉ b.rows := by
  simp only [Locks.conflict, Bool.or_eq_false_iff, List.any_eq_false, decide_eq_true_eq, Bool.or_eq_true, not_or] at h
  exact ⟨fun l hl => (h.1 l hl).2, fun l hl => h.2 l hl⟩

theorem tied_stmt (hX : Tied S cb X) (hb : A.engine.backend = .mysql) (hC : Constrained S cb) (hLk : LinksKept A cb)
    (hT : Tracks A.engine cb) (hN : NoReentry A.engine) (hk : S.key cb.model.table = cb.model.pk)
    (hm : ∀ t, ¬ Managed A.engine t (S.key t)) {i : Nat} {s : Stmt} (hL : LegalStmt A.engine cb (X.sight S i).1 s)
    (hs : KeepsKeys S (X.sight S i).1 s) (hst : LinksStay cb s) : Tied S cb (A.move S X (.stmt i s)) := by
  have hok := serverOk_stmt hX.ok hT hN hk hm hL hs
  simp only [App.move] at hok ⊢
  cases he : A.exec s (X.sight S i).1 with
  | error e => exact hX
  | ok v =>
    rw [he] at hok
    simp only at hok ⊢
    split
    · exact hX
    · rename_i hw
      rw [if_neg hw] at hok
      split
      · exact hX
      · rename_i hne
        rw [if_neg hne] at hok
        have hw' := Bool.eq_false_iff.2 hw
        obtain ⟨new, g7, g8⟩ := exec_withDirty (engine_of_exec he)
        have hKs : KeysOk cb (X.sight S i).1 := (sight_ok hX.ok hT hk i).1
        generalize hl : locksOf S (A.changesOf s (X.sight S i).1) = l at hok hw'
        -- the locks of this session and of the others
        have hfree : ∀ j U, i ≠ j → X.sessions[j]? = some (some U) → (∀ x ∈ (l.append (X.sight S i).2).rows, x ∉ U.locks.refs) ∧
            ∀ x ∈ U.locks.rows, x ∉ (l.append (X.sight S i).2).refs := by
          intro j U hij hU
          have h0 := free_of_waits hw' (by simpa using Ne.symm hij) hU
          rw [hb] at h0
          have h1 := free_mysql h0
          refine ⟨fun x hx => ?_, fun x hx hx' => ?_⟩
          · simp only [Locks.append, List.mem_append] at hx
            rcases hx with hx | hx
            · exact h1.1 x hx
            · rcases sight_cases X S i with ⟨T, h3, h4⟩ | h4
              · rw [h4] at hx
                exact hX.refs i j T U hij h3 hU x hx
              · rw [h4] at hx; simp [Locks.free] at hx
          · simp only [Locks.append, List.mem_append] at hx'
            rcases hx' with hx' | hx'
            · exact h1.2 x hx' hx
            · rcases sight_cases X S i with ⟨T, h3, h4⟩ | h4
              · rw [h4] at hx'
                exact hX.refs j i U T (Ne.symm hij) hU h3 x hx hx'
              · rw [h4] at hx'; simp [Locks.free] at hx'
        have hcame : ∀ d ∈ cb.deps, ∀ p ∈ d.dep.reference, Held S p (fun κ => (p.target.table, κ) ∈ (l.append (X.sight S i).2).refs) X.db v := by
          intro d hd p hp
          have h1 := sight_held hX i hd hp
          have h2 := from_exec (S := S) (keep := S.key p.table :: p.keep) hN he (hC d hd p hp).1 (by
            intro x hx
            cases s with
            | update t w σ =>
              intro ht
              rcases List.mem_cons.1 hx with rfl | hx
              · subst ht; exact hs
              · exact hst d hd p hp ht.symm x hx
            | _ => trivial) (by
            intro x hx
            rcases List.mem_cons.1 hx with rfl | hx
            · exact hm _
            · exact (hLk d hd p hp x hx).1)
          intro r hr
          rcases (h1.trans h2) r hr with h3 | h3 | h3
          · exact .inl h3
          · exact .inr (List.mem_append_right _ h3)
          · exact .inr (List.mem_append_left _ (by rw [← hl]; exact h3))
        have hadded : ∀ added, (X.sight S i).1.dirty = X.db.dirty ++ added → (⟨X.db, v, l.append (X.sight S i).2⟩ : Txn).added = added ++ new := by
          intro added g5
          simp only [Txn.added, g7, g5, List.append_assoc, List.drop_left]
        have hfar : ∀ d ∈ cb.deps, d.dep.ownKeys = [] → FarAt S cb X.db ⟨X.db, v, l.append (X.sight S i).2⟩ d := by
          intro d hd ho r
          obtain ⟨added, g5, g6⟩ := sight_far hX i hd ho r
          have hTd := tracks_only hT hd
          have := far_exec hTd (fun d' hd' => by rw [List.mem_singleton.1 hd']; exact ho) hN (g8 added) (legal_withDirty (legal_only hL hd) added) hs hm
            (keysOk_only hKs hd) r ((cb.only d).keyed S X.db r) (g6.imp id fun h => ((viewed_keyed S hTd).rows _ _ _ rfl).trans h)
          refine this.imp (fun h => ?_) fun h => ?_
          · unfold OwnMark
            rw [hadded added g5]
            exact h
          · refine unmoved_of_keyed ((keyed_only (cb := cb)).1 ?_)
            exact ((viewed_keyed S hTd).rows _ _ _ rfl).symm.trans h
        have hnear : ∀ d ∈ cb.deps, Near S cb X.db ⟨X.db, v, l.append (X.sight S i).2⟩ d := by
          intro d hd r hr
          obtain ⟨added, g5, g6⟩ := sight_near hX hT hk i hd
          have hTd := tracks_only hT hd
          have hself := keyed_exec hTd hN (copiedOnly_tracked S (cb.only d) X.db) (g8 added) (legal_withDirty (legal_only hL hd) added) hs hm
            (keysOk_only hKs hd) fun r hr => (g6 r hr).imp id fun h =>
              copiedOnly_tracked S (cb.only d) X.db (X.sight S i).1 _ r r (fun _ _ => rfl) rfl ((viewed_keyed S hTd).rows _ _ _ rfl) h
          by_cases hex : ∃ rv ∈ v.rows cb.model.table, rv cb.model.pk = r cb.model.pk
          · obtain ⟨rv, hrv, hp⟩ := hex
            rcases hself.2 rv hrv with h1 | ⟨rc, hrc, hp', ho, h1⟩
            · left
              unfold OwnMark
              rw [hadded added g5, ← hp]
              exact h1
            · have : rc = r := eq_of_key (hX.ok.keys cb.model.table) hrc hr (by rw [hk]; exact hp'.trans hp)
              subst this
              refine .inr (.inr (unmoved_of_keyed ((keyed_only (cb := cb)).1 ?_)))
              have h2 := (viewed_keyed S hTd).congr v rc rv hp' ho
              exact h2.trans (((viewed_keyed S hTd).rows _ _ _ rfl).symm.trans h1)
          · refine .inr (.inl ⟨?_, fun rv hrv hp => hex ⟨rv, hrv, hp⟩⟩)
            apply Classical.byContradiction
            intro hnl
            have hsame : SameAt (S.key cb.model.table) (r cb.model.pk) (X.db.rows cb.model.table) (v.rows cb.model.table) := by
              simp only [Locks.append, List.mem_append, not_or] at hnl
              refine ((sight_ok hX.ok hT hk i).2.2.2.1 _ _ hnl.2).trans (exec_sameAt he ?_)
              rw [hl]; exact hnl.1
            exact hex ⟨r, (hsame r (by rw [hk])).1 hr, rfl⟩
        refine ⟨hok, ?_, ?_, ?_, ?_⟩
        · intro j j' U U' hjj hU hU' x hx
          rcases getElem?_set_some hU with ⟨e1, h1⟩ | ⟨e1, h1⟩ <;> rcases getElem?_set_some hU' with ⟨e2, h2⟩ | ⟨e2, h2⟩
          · exact absurd (e1.symm.trans e2) hjj
          · simp only [Option.some.injEq] at h1
            subst h1
            exact (hfree j' U' (e1 ▸ hjj) h2).1 x hx
          · simp only [Option.some.injEq] at h2
            subst h2
            exact (hfree j U e1 h1).2 x hx
          · exact hX.refs j j' U U' hjj h1 h2 x hx
        all_goals
          intro j U hU
          rcases getElem?_set_some hU with ⟨_, h1⟩ | ⟨_, h1⟩
          case' inl => simp only [Option.some.injEq] at h1; subst h1
        · exact hcame
        · exact hX.came j U h1
        · exact hnear
        · exact hX.near j U h1
        · exact hfar
        · exact hX.far j U h1

/-- The committed state changes, and no reference is made to a row that some session has written. -/
theorem tied_held {X' : DbServer} (hX : Tied S cb X) (hC : Constrained S cb) (hT : Tracks A.engine cb) (hk : S.key cb.model.table = cb.model.pk)
    (hok : ServerOk S cb X') (hsub : ∀ (j : Nat) T, X'.sessions[j]? = some (some T) → X.sessions[j]? = some (some T))
    (hh : ∀ (j : Nat) T, X'.sessions[j]? = some (some T) → ∀ d ∈ cb.deps, ∀ p ∈ d.dep.reference,
      Held S p (fun κ => (p.target.table, κ) ∉ T.locks.rows) X.db X'.db) : Tied S cb X' := by
  have hfar : ∀ (j : Nat) T, X'.sessions[j]? = some (some T) → ∀ d ∈ cb.deps, d.dep.ownKeys = [] → FarAt S cb X'.db T d := fun j T hj d hd ho =>
    far_held (hX.ok.sessions j T (hsub j T hj)) (fun p hp => (hC d hd p hp).2) (hh j T hj d hd) (hX.far j T (hsub j T hj) d hd ho)
  refine ⟨hok, fun i j T U hij hi hj => hX.refs i j T U hij (hsub i T hi) (hsub j U hj), fun j T hj => hX.came j T (hsub j T hj), fun j T hj d hd => ?_, hfar⟩
  rcases ownKeys_cases d.dep with ho | ⟨f, hf⟩
  · exact far_near (hfar j T hj d hd ho)
  · exact near_held hf (hT.this d hd) hk (hX.ok.sessions j T (hsub j T hj)) (fun p hp => (hC d hd p hp).2) (hh j T hj d hd) (hX.near j T (hsub j T hj) d hd)

theorem close_sub (i : Nat) (db : Db) (j : Nat) (T : Txn) (h : (⟨db, X.sessions.set i none⟩ : DbServer).sessions[j]? = some (some T)) :
    i ≠ j ∧ X.sessions[j]? = some (some T) := by
  rcases getElem?_set_some h with ⟨_, h1⟩ | h1
  · simp at h1
  · exact h1

theorem tied_commit (hX : Tied S cb X) (hC : Constrained S cb) (hT : Tracks A.engine cb) (hk : S.key cb.model.table = cb.model.pk) (i : Nat) :
    Tied S cb (A.move S X (.commit i)) := by
  refine tied_held hX hC hT hk (serverOk_commit hX.ok hT hk i) (fun j T h => (close_sub i _ j T h).2) fun j T h d hd p hp r hr => ?_
  obtain ⟨hij, hj⟩ := close_sub i _ j T h
  refine (sight_held hX i hd hp r hr).imp id fun hl hl' => ?_
  rcases sight_cases X S i with ⟨U, h1, h2⟩ | h2
  · rw [h2] at hl
    exact hX.refs j i T U (Ne.symm hij) hj h1 _ hl' hl
  · rw [h2] at hl; simp [Locks.free] at hl

theorem tied_close (hX : Tied S cb X) (hC : Constrained S cb) (hT : Tracks A.engine cb) (hk : S.key cb.model.table = cb.model.pk) (i : Nat) :
    Tied S cb ⟨X.db, X.sessions.set i none⟩ :=
  tied_held hX hC hT hk (serverOk_close hX.ok i) (fun j T h => (close_sub i _ j T h).2) fun _ _ _ _ _ _ _ => From.refl _ _ _ _

theorem tied_flushOne (hX : Tied S cb X) (hb : A.engine.backend = .mysql) (hC : Constrained S cb) (hLk : LinksKept A cb)
    (hT : Tracks A.engine cb) (hk : S.key cb.model.table = cb.model.pk) (hm : ∀ t, ¬ Managed A.engine t (S.key t))
    (hS : ∀ om ∈ A.models, S.key om.model.table = om.model.pk) {m : Mark} (hF : Flushable A D om cb X.db) (hU : KeysUnique A X.db) :
    Tied S cb (A.move S X (.flushOne m)) := by
  -- no reference is made to a row that some session has written
  have hheld : A.flushWaits S m X = false → ∀ db', A.flushOne m X.db = .ok db' → ∀ (j : Nat) T, X.sessions[j]? = some (some T) → ∀ d ∈ cb.deps,
      ∀ p ∈ d.dep.reference, Held S p (fun κ => (p.target.table, κ) ∉ T.locks.rows) X.db db' := by
    intro hw db' hf j T hj d hd p hp
    simp only [App.flushOne] at hf
    cases h1 : A.saveObject m X.db with
    | error e => rw [h1] at hf; simp at hf
    | ok db1 =>
      rw [h1] at hf
      simp only [Except.ok.injEq] at hf
      subst hf
      show From _ _ _ _ (db1.rows p.table)
      rcases saveObject_stmt' hF hU hS h1 with rfl | ⟨om', hom', mem, he, _, hK, hch⟩
      · exact From.refl _ _ _ _
      · have h2 := from_exec (S := S) (keep := S.key p.table :: p.keep) hF.noReentry he (hC d hd p hp).1 (by
            intro x hx ht
            rcases List.mem_cons.1 hx with rfl | hx
            · rw [← ht]; exact hK
            · intro _ r
              exact if_neg ((hLk d hd p hp x hx).2 om' hom' ht)) (by
            intro x hx
            rcases List.mem_cons.1 hx with rfl | hx
            · exact hm _
            · exact (hLk d hd p hp x hx).1)
        intro r hr
        refine (h2 r hr).imp id fun h3 h4 => ?_
        have h5 := free_of_waits hw (by simp) hj
        rw [hb] at h5
        refine (free_mysql h5).2 _ ?_ h4
        rw [hch]
        exact List.mem_append_left _ h3
  have hnear : A.flushWaits S m X = false → ∀ db', A.flushOne m X.db = .ok db' → ∀ (j : Nat) T, X.sessions[j]? = some (some T) → ∀ d ∈ cb.deps, Near S cb db' T d := by
    intro hw db' hf j T hj d hd
    rcases ownKeys_cases d.dep with ho | ⟨f, hf'⟩
    · exact far_near (far_held (hX.ok.sessions j T hj) (fun p hp => (hC d hd p hp).2) (hheld hw db' hf j T hj d hd) (hX.far j T hj d hd ho))
    · exact near_held hf' (hT.this d hd) hk (hX.ok.sessions j T hj) (fun p hp => (hC d hd p hp).2) (hheld hw db' hf j T hj d hd) (hX.near j T hj d hd)
  have hok := serverOk_flushOne hX.ok hk hm hS hF hU (m := m) fun hw db' hf T hT' => .inr fun r hr => by
    obtain ⟨j, hj⟩ := List.getElem?_of_mem hT'
    exact Tied.heedful (hnear hw db' hf j T hj) hr
  refine tied_held (A := A) hX hC hT hk hok ?_ ?_
  · intro j T hj
    simp only [App.move] at hj
    split at hj
    · exact hj
    · split at hj <;> exact hj
  · intro j T hj
    simp only [App.move] at hj ⊢
    split at hj
    · rename_i hw
      rw [if_pos hw]
      exact fun _ _ _ _ => From.refl _ _ _ _
    · rename_i hw
      rw [if_neg hw]
      cases hf : A.flushOne m X.db with
      | error e => exact fun _ _ _ _ => From.refl _ _ _ _
      | ok db' =>
        rw [hf] at hj
        exact hheld (Bool.eq_false_iff.2 hw) db' hf j T hj

theorem tied_moves (hb : A.engine.backend = .mysql) (hC : Constrained S cb) (hLk : LinksKept A cb) (hT : Tracks A.engine cb) (hN : NoReentry A.engine)
    (hk : S.key cb.model.table = cb.model.pk) (hm : ∀ t, ¬ Managed A.engine t (S.key t)) (hS : ∀ om ∈ A.models, S.key om.model.table = om.model.pk) :
    ∀ (μs : List Move) {X : DbServer}, Tied S cb X → (∀ i s, Move.stmt i s ∈ μs → LinksStay cb s) → Orderly A S D om cb μs X → Tied S cb (A.moves S μs X)
  | [], _, hX, _, _ => hX
  | μ :: μs, X, hX, hst, ho => by
    simp only [App.moves]
    refine tied_moves hb hC hLk hT hN hk hm hS μs ?_ (fun i s h => hst i s (List.mem_cons_of_mem _ h)) ho.2
    cases μ with
    | stmt i s => exact tied_stmt hX hb hC hLk hT hN hk hm ho.1.1 ho.1.2 (hst i s List.mem_cons_self)
    | commit i => exact tied_commit hX hC hT hk i
    | rollback i => exact tied_close hX hC hT hk i
    | flushOne m => exact tied_flushOne hX hb hC hLk hT hk hm hS ho.1.1 ho.1.2

end

end Denorm
