import Verif.Lemmas.TxnView
import Verif.Lemmas.Session
/-!
# What the server maintains while sessions run transactions
-/
namespace Denorm

/-! ## A statement leaves the rows alone that are not among its changes -/

theorem mem_set_other {rs : List Row} {i : Nat} {old new r : Row} (hi : rs[i]? = some old) (ho : r ≠ old) (hn : r ≠ new) :
    r ∈ rs.set i new ↔ r ∈ rs := by
  constructor
  · intro h
    rcases List.mem_or_eq_of_mem_set h with h | h
    · exact h
    · exact absurd h hn
  · intro h
    obtain ⟨j, hj, rfl⟩ := List.mem_iff_getElem.1 h
    have hij : i ≠ j := by
      rintro rfl
      rw [List.getElem?_eq_getElem hj] at hi
      exact ho (Option.some.inj hi)
    exact List.mem_iff_getElem.2 ⟨j, by simpa using hj, by simp [List.getElem_set_ne hij]⟩

theorem mem_eraseP_other {rs : List Row} {w : Row → Bool} {old r : Row} (hf : rs.find? w = some old) (ho : r ≠ old) :
    r ∈ rs.eraseP w ↔ r ∈ rs := by
  induction rs with
  | nil => simp at hf
  | cons a l ih =>
    by_cases ha : w a = true
    · rw [List.find?_cons_of_pos ha] at hf
      simp only [Option.some.injEq] at hf
      subst hf
      rw [List.eraseP_cons_of_pos ha]
      simp [ho]
    · rw [List.find?_cons_of_neg ha] at hf
      rw [List.eraseP_cons_of_neg ha]
      simp [ih hf]

theorem applyOp_sameAt {E : Engine} {t t' : TableName} {op : RowOp} {db : Db} {kc : Col} {κ : Val}
    (h : ∀ ch ∈ (applyOp E t op db).2, ch.table = t' → ∀ v ∈ ch.versions, v kc ≠ κ) :
    SameAt kc κ (db.rows t') ((applyOp E t op db).1.rows t') := by
  by_cases ht : t' = t
  · subst ht
    intro r hr
    cases op with
    | ins n =>
      have := h ⟨t', .insert, n, n⟩ (by simp [applyOp]) rfl n (by simp [Change.versions])
      have hne : r ≠ n := by rintro rfl; exact this hr
      simp [applyOp, Db.setRows, hne]
    | upd i σ =>
      cases hi : (db.rows t')[i]? with
      | none => simp [applyOp, hi]
      | some old =>
        have := h ⟨t', .update, old, σ (E.rand db.draws) old⟩ (by simp [applyOp, hi]) rfl
        have h1 : r ≠ old := by rintro rfl; exact this r (by simp [Change.versions]) hr
        have h2 : r ≠ σ (E.rand db.draws) old := by rintro rfl; exact this _ (by simp [Change.versions]) hr
        simpa [applyOp, hi, Db.setRows] using (mem_set_other hi h1 h2).symm
    | del w =>
      cases hf : (db.rows t').find? w with
      | none => simp [applyOp, hf]
      | some old =>
        have := h ⟨t', .delete, old, old⟩ (by simp [applyOp, hf]) rfl old (by simp [Change.versions])
        have h1 : r ≠ old := by rintro rfl; exact this hr
        simpa [applyOp, hf, Db.setRows] using (mem_eraseP_other hf h1).symm
  · intro r _
    have : (applyOp E t op db).1.rows t' = db.rows t' := by
      cases op with
      | ins n => simp [applyOp, Db.setRows, ht]
      | upd i σ => simp only [applyOp]; split <;> simp [Db.setRows, ht]
      | del w => simp only [applyOp]; split <;> simp [Db.setRows, ht]
    rw [this]

theorem applyOps_sameAt {E : Engine} {t t' : TableName} {kc : Col} {κ : Val} : ∀ {ops : List RowOp} {db : Db},
    (∀ p ∈ opChanges E t ops db, p.1.table = t' → ∀ v ∈ p.1.versions, v kc ≠ κ) →
    SameAt kc κ (db.rows t') ((applyOps E t ops db).1.rows t')
  | [], _, _ => SameAt.refl _ _ _
  | op :: ops, db, h => by
    simp only [opChanges] at h
    refine SameAt.trans (applyOp_sameAt (op := op) fun ch hch => ?_) (applyOps_sameAt fun p hp => h p (List.mem_append_right _ hp))
    exact h (ch, _) (List.mem_append_left _ (List.mem_map.2 ⟨ch, hch, rfl⟩))

theorem changes_sameAt {E : Engine} {t : TableName} {kc : Col} {κ : Val} : ∀ {n : Nat} {W : List Item} {db db' : Db},
    E.drain n W db = .ok db' → (∀ p ∈ E.changes n W db, p.1.table = t → ∀ v ∈ p.1.versions, v kc ≠ κ) →
    SameAt kc κ (db.rows t) (db'.rows t)
  | _, [], db, db', hd, _ => by
    simp only [Engine.drain, Except.ok.injEq] at hd
    exact hd ▸ SameAt.refl _ _ _
  | 0, _ :: _, _, _, hd, _ => by simp [Engine.drain] at hd
  | n + 1, it :: W, db, db', hd, h => by
    simp only [Engine.drain] at hd
    cases hs : E.step it db with
    | error e => rw [hs] at hd; simp at hd
    | ok p =>
      obtain ⟨new, db1⟩ := p
      rw [hs] at hd
      simp only [Engine.changes, hs] at h
      refine SameAt.trans ?_ (changes_sameAt hd fun p hp => h p (List.mem_append_right _ hp))
      cases it with
      | write fr t' ops =>
        simp only [Engine.step, Except.ok.injEq, Prod.mk.injEq] at hs
        obtain ⟨_, rfl⟩ := hs
        exact applyOps_sameAt fun p hp => h p (List.mem_append_left _ hp)
      | act fr ch a =>
        have : db1.rows = db.rows := by
          cases a with
          | markValues ct s c q => simp only [Engine.step, Except.ok.injEq, Prod.mk.injEq] at hs; rw [← hs.2]; rfl
          | markSelect ct sel t k s c q => simp only [Engine.step, Except.ok.injEq, Prod.mk.injEq] at hs; rw [← hs.2]; rfl
          | update u =>
            simp only [Engine.step] at hs
            split at hs
            · simp at hs
            · simp only [Except.ok.injEq, Prod.mk.injEq] at hs; rw [← hs.2]
        rw [this]
        exact SameAt.refl _ _ _

/-- Rows without a lock of the statement are as before. -/
theorem exec_sameAt {A : App} {S : Schema} {s : Stmt} {db db' : Db} (h : A.exec s db = .ok db') {t : TableName} {κ : Val}
    (hl : (t, κ) ∉ (locksOf S (A.changesOf s db)).rows) : SameAt (S.key t) κ (db.rows t) (db'.rows t) := by
  unfold App.exec at h
  cases he : A.engine.exec A.fuel s db with
  | error e => rw [he] at h; simp at h
  | ok d =>
    rw [he] at h
    simp only [Except.ok.injEq] at h
    subst h
    refine changes_sameAt he fun p hp ht v hv hk => hl ?_
    simp only [locksOf, App.changesOf, List.mem_flatMap, List.mem_map]
    exact ⟨p.1, ⟨p, hp, rfl⟩, v, hv, by rw [ht, hk]⟩

theorem engine_of_exec {A : App} {s : Stmt} {db db' : Db} (h : A.exec s db = .ok db') : A.engine.exec A.fuel s db = .ok db' := by
  unfold App.exec at h
  cases he : A.engine.exec A.fuel s db with
  | error e => rw [he] at h; simp at h
  | ok d => rw [he] at h; simp only [Except.ok.injEq] at h; rw [h]

/-! ## The state of a session -/

/-- The session has marked the row itself. -/
def OwnMark (cb : Callback) (T : Txn) (r : Row) : Prop := (⟨cb.model.ct, r cb.model.pk⟩ : Mark) ∈ T.added

/-- The session deletes the row. -/
def Gone (cb : Callback) (T : Txn) (r : Row) : Prop :=
  (cb.model.table, r cb.model.pk) ∈ T.locks.rows ∧ ∀ v ∈ T.view.rows cb.model.table, v cb.model.pk ≠ r cb.model.pk

/-- The session's changes do not put the row out of date unnoticed. -/
def Heedful (S : Schema) (cb : Callback) (T : Txn) (cur : Db) (r : Row) : Prop :=
  OwnMark cb T r ∨ Gone cb T r ∨ ∀ d ∈ cb.deps, Unmoved S d T.base T.view cur r

/-- What is known about a session that has written something. -/
structure SessionOk (S : Schema) (cb : Callback) (cur : Db) (T : Txn) : Prop where
  nbase : KeysDistinct S T.base
  nview : KeysDistinct S T.view
  keysOk : KeysOk cb T.view
  more : ∃ new, T.view.dirty = T.base.dirty ++ new
  heeds : ∀ r ∈ cur.rows cb.model.table, Marked cb.model cur r ∨ Heedful S cb T cur r
  own : ∀ r ∈ T.view.rows cb.model.table, (cb.model.table, r cb.model.pk) ∈ T.locks.rows → OwnMark cb T r ∨
    ∃ r0 ∈ T.base.rows cb.model.table, r0 cb.model.pk = r cb.model.pk ∧ ∀ c ∈ cb.ownCols, r0 c = r c
  outside : ∀ t κ, (t, κ) ∉ T.locks.rows → SameAt (S.key t) κ (T.base.rows t) (T.view.rows t)
  inside : ∀ t κ, (t, κ) ∈ T.locks.rows → SameAt (S.key t) κ (T.base.rows t) (cur.rows t)
  wrote : T.locks.rows ≠ []

theorem SessionOk.mergeable {S : Schema} {cb : Callback} {cur : Db} {T : Txn} (h : SessionOk S cb cur T) (hc : KeysDistinct S cur) :
    MergeableDb S T.base T.view cur := by
  intro t
  refine ⟨h.nbase t, h.nview t, hc t, fun κ => ?_⟩
  by_cases hl : (t, κ) ∈ T.locks.rows
  · exact .inr (h.inside t κ hl)
  · exact .inl (h.outside t κ hl)

theorem heedful_tracked {E : Engine} (S : Schema) {cb : Callback} (hT : Tracks E cb) (T : Txn) : TrackedBy cb (cb.keyed S) (Heedful S cb T) := by
  intro db db' r r' hown hpk hv h
  rcases h with h | ⟨h1, h2⟩ | h
  · exact .inl (by unfold OwnMark at h ⊢; rw [← hpk]; exact h)
  · exact .inr (.inl ⟨by rw [← hpk]; exact h1, fun v hv => by rw [← hpk]; exact h2 v hv⟩)
  · refine .inr (.inr fun d hd => ?_)
    exact unmoved_congr (hT.notBackGeneric hd) (by rw [hT.this d hd]; exact hpk) (fun c hc => hown c (ownKeys_own hd hc))
      (List.map_inj_left.1 hv d hd) (h d hd)

/-- Where a row of the merged state comes from: the session has marked it itself, or there is a committed row with the same contents, which
is marked or sees the same in both states. -/
theorem SessionOk.origin {E : Engine} {S : Schema} {cb : Callback} {cur : Db} {T : Txn} (h : SessionOk S cb cur T) (hT : Tracks E cb)
    (hk : S.key cb.model.table = cb.model.pk) (hc : KeysDistinct S cur) {r : Row}
    (hr : r ∈ (Db.merge S T.base T.view cur).rows cb.model.table) :
    OwnMark cb T r ∨ ∃ rc ∈ cur.rows cb.model.table, rc cb.model.pk = r cb.model.pk ∧ (∀ c ∈ cb.ownCols, rc c = r c) ∧
      (Marked cb.model cur rc ∨ cb.keyed S (Db.merge S T.base T.view cur) r = cb.keyed S cur rc) := by
  have hM := h.mergeable hc
  have key : ∀ rc ∈ cur.rows cb.model.table, rc cb.model.pk = r cb.model.pk → (∀ c ∈ cb.ownCols, rc c = r c) → ¬ Gone cb T rc →
      OwnMark cb T r ∨ ∃ rc ∈ cur.rows cb.model.table, rc cb.model.pk = r cb.model.pk ∧ (∀ c ∈ cb.ownCols, rc c = r c) ∧
        (Marked cb.model cur rc ∨ cb.keyed S (Db.merge S T.base T.view cur) r = cb.keyed S cur rc) := by
    intro rc hrc hp ho hng
    rcases h.heeds rc hrc with h1 | h1 | h1 | h1
    · exact .inr ⟨rc, hrc, hp, ho, .inl h1⟩
    · exact .inl (by unfold OwnMark at h1 ⊢; rw [← hp]; exact h1)
    · exact absurd h1 hng
    · refine .inr ⟨rc, hrc, hp, ho, .inr ?_⟩
      rw [← (viewed_keyed S hT).congr _ rc r hp ho]
      exact List.map_congr_left fun d hd => keyedView_merge hM (h1 d hd)
  by_cases hl : (cb.model.table, r cb.model.pk) ∈ T.locks.rows
  · have hin := h.inside _ _ hl
    have hrv := (merge_sameAt_view (hM cb.model.table) hin r (by rw [hk])).1 hr
    rcases h.own r hrv hl with h1 | ⟨r0, h0, hp, ho⟩
    · exact .inl h1
    · exact key r0 ((hin r0 (by rw [hk]; exact hp)).1 h0) hp ho fun hg => hg.2 r hrv hp.symm
  · have hrc := (merge_sameAt_cur (hM cb.model.table) (h.outside _ _ hl) r (by rw [hk])).1 hr
    exact key r hrc rfl (fun _ _ => rfl) fun hg => hl hg.1

/-- A property that the committed rows have, if not marked, is a property of the merged rows. -/
theorem SessionOk.merged {E : Engine} {S : Schema} {cb : Callback} {cur : Db} {T : Txn} (h : SessionOk S cb cur T) (hT : Tracks E cb)
    (hk : S.key cb.model.table = cb.model.pk) (hc : KeysDistinct S cur) {C : Db → Row → Prop} (hC : TrackedBy cb (cb.keyed S) C)
    (hcur : ∀ r ∈ cur.rows cb.model.table, Marked cb.model cur r ∨ C cur r) :
    ∀ r ∈ (Db.merge S T.base T.view cur).rows cb.model.table,
      Marked cb.model (Db.merge S T.base T.view cur) r ∨ C (Db.merge S T.base T.view cur) r := by
  intro r hr
  have marked : ∀ rc : Row, rc cb.model.pk = r cb.model.pk → Marked cb.model cur rc → Marked cb.model (Db.merge S T.base T.view cur) r := by
    intro rc hp hm
    unfold Marked at hm ⊢
    rw [← hp]
    exact List.mem_append_left _ hm
  rcases h.origin hT hk hc hr with h1 | ⟨rc, hrc, hp, ho, h1 | h1⟩
  · exact .inl (List.mem_append_right _ h1)
  · exact .inl (marked rc hp h1)
  · rcases hcur rc hrc with h2 | h2
    · exact .inl (marked rc hp h2)
    · exact .inr (hC _ _ _ _ ho hp h1.symm h2)

theorem SessionOk.merged_keysOk {S : Schema} {cb : Callback} {cur : Db} {T : Txn} (h : SessionOk S cb cur T) (hc : KeysDistinct S cur)
    (hK : KeysOk cb cur) : KeysOk cb (Db.merge S T.base T.view cur) := by
  intro p hp r hr
  rcases mem_merge (h.mergeable hc p.1) hr with ⟨h1, _⟩ | ⟨h1, _⟩
  · exact hK p hp r h1
  · exact h.keysOk p hp r h1

theorem seen_of_keyed {kc : Col} {reads : List Col} {rs rs' : List Row} (h : seen (kc :: reads) rs = seen (kc :: reads) rs') :
    seen reads rs = seen reads rs' := by
  have := congrArg (fun l : List (List Val) => l.map List.tail) h
  simpa [seen, Function.comp_def] using this

theorem seen_keyedView {S : Schema} {d : DepRead} {db db' : Db} {r r' : Row} (h : keyedView S d db r = keyedView S d db' r') :
    seen d.reads (relatedRows d.dep db r) = seen d.reads (relatedRows d.dep db' r') := by
  cases hm : d.dep.m2mTable with
  | none =>
    simp only [keyedView_none hm, List.cons.injEq, Prod.mk.injEq, true_and, and_true] at h
    exact seen_of_keyed h
  | some q =>
    obtain ⟨tbl, c, k⟩ := q
    have e : ∀ (db : Db) (r : Row), seen d.reads (relatedRows d.dep db r) = (keyedView S d db r).flatMap fun x => x.2.map List.tail := by
      intro db r
      rw [keyedView_some hm, List.flatMap_assoc]
      rcases hf : d.dep.rel with f | f | (m | g) | (m | g) <;> simp [Dep.m2mTable, hf] at hm
      all_goals
        obtain ⟨rfl, rfl, rfl⟩ := hm
        simp only [relatedRows, hf, seen, List.map_flatMap]
        simp [Function.comp_def]
    rw [e, e, h]

/-- Whether a row's value is right depends on its own columns and on what it sees. -/
theorem fresh_keyed (S : Schema) (cb : Callback) : TrackedBy cb (cb.keyed S) fun db r => cb.Fresh db r := by
  intro db db' r r' hown hpk hv h
  exact freshTracked cb db db' r r' hown hpk (fun d hd => seen_keyedView (List.map_inj_left.1 hv d hd)) h

/-! ## The state of the server -/

/-- What holds between moves. -/
structure ServerOk (S : Schema) (cb : Callback) (X : DbServer) : Prop where
  keys : KeysDistinct S X.db
  keysOk : KeysOk cb X.db
  stale : ∀ r ∈ X.db.rows cb.model.table, Marked cb.model X.db r ∨ cb.Fresh X.db r
  sessions : ∀ (i : Nat) T, X.sessions[i]? = some (some T) → SessionOk S cb X.db T
  apart : ∀ (i j : Nat) T U, i ≠ j → X.sessions[i]? = some (some T) → X.sessions[j]? = some (some U) → ∀ l ∈ T.locks.rows, l ∉ U.locks.rows

/-- Two sets of locks that do not exclude each other are on different rows. -/
theorem apart_of_free {back : Backend} {a b : Locks} (h : Locks.conflict back a b = false) : ∀ l ∈ a.rows, l ∉ b.rows := by
  intro l ha hb
  cases back with
  | sqlite =>
    simp only [Locks.conflict, Bool.and_eq_false_iff, Bool.not_eq_false', List.isEmpty_iff] at h
    rcases h with h | h
    · rw [h] at ha; simp at ha
    · rw [h] at hb; simp at hb
  | mysql =>
    simp only [Locks.conflict, Bool.or_eq_false_iff, List.any_eq_false, decide_eq_true_eq, Bool.or_eq_true, not_or] at h
    exact (h.1 l ha).1 hb
  | postgresql =>
    simp only [Locks.conflict, Bool.or_eq_false_iff, List.any_eq_false, decide_eq_true_eq] at h
    exact h.1.1 l ha hb

theorem free_of_waits {back : Backend} {X : DbServer} {i : Option Nat} {l : Locks} (h : X.waits back i l = false) {j : Nat} {T : Txn}
    (hj : some j ≠ i) (hT : X.sessions[j]? = some (some T)) : Locks.conflict back l T.locks = false := by
  have hlt : j < X.sessions.length := by
    apply Classical.byContradiction
    intro hn
    rw [List.getElem?_eq_none (by omega)] at hT
    simp at hT
  simp only [DbServer.waits, List.any_eq_false, List.mem_range, Bool.and_eq_true, decide_eq_true_eq, not_and] at h
  have := h j hlt hj
  rw [hT] at this
  simpa using this

section
variable {A : App} {S : Schema} {D : List Denorm} {om : OrmModel} {cb : Callback} {X : DbServer}

theorem getElem?_set_some {l : List (Option Txn)} {i j : Nat} {a : Option Txn} {T : Txn} (h : (l.set i a)[j]? = some (some T)) :
    (i = j ∧ a = some T) ∨ (i ≠ j ∧ l[j]? = some (some T)) := by
  rw [List.getElem?_set] at h
  split at h
  · rename_i hij
    split at h
    · exact .inl ⟨hij, Option.some.inj h⟩
    · simp at h
  · rename_i hij
    exact .inr ⟨hij, h⟩

theorem sight_cases (X : DbServer) (S : Schema) (i : Nat) :
    (∃ T, X.sessions[i]? = some (some T) ∧ X.sight S i = (Db.merge S T.base T.view X.db, T.locks)) ∨ X.sight S i = (X.db, .free) := by
  unfold DbServer.sight
  split
  · rename_i T h; exact .inl ⟨T, h, rfl⟩
  · exact .inr rfl

/-- The row has the contents of a committed row, which is marked or sees the same. -/
def Copied (S : Schema) (cb : Callback) (cur db : Db) (r : Row) : Prop :=
  ∃ rc ∈ cur.rows cb.model.table, rc cb.model.pk = r cb.model.pk ∧ (∀ c ∈ cb.ownCols, rc c = r c) ∧
    (Marked cb.model cur rc ∨ cb.keyed S db r = cb.keyed S cur rc)

theorem copied_tracked (S : Schema) (cb : Callback) (cur : Db) : TrackedBy cb (cb.keyed S) (Copied S cb cur) := by
  rintro db db' r r' hown hpk hv ⟨rc, h0, h1, h2, h3⟩
  exact ⟨rc, h0, h1.trans hpk, fun c hc => (h2 c hc).trans (hown c hc), h3.imp id fun h => hv.symm.trans h⟩

/-- What a session sees before its next statement, compared with the committed state. -/
theorem sight_ok (hX : ServerOk S cb X) (hT : Tracks A.engine cb) (hk : S.key cb.model.table = cb.model.pk) (i : Nat) :
    KeysOk cb (X.sight S i).1 ∧ KeysDistinct S (X.sight S i).1 ∧
    (∀ C : Db → Row → Prop, TrackedBy cb (cb.keyed S) C → (∀ r ∈ X.db.rows cb.model.table, Marked cb.model X.db r ∨ C X.db r) →
      ∀ r ∈ (X.sight S i).1.rows cb.model.table, Marked cb.model (X.sight S i).1 r ∨ C (X.sight S i).1 r) ∧
    (∀ t κ, (t, κ) ∉ (X.sight S i).2.rows → SameAt (S.key t) κ (X.db.rows t) ((X.sight S i).1.rows t)) ∧
    ∃ added, (X.sight S i).1.dirty = X.db.dirty ++ added ∧ ∀ r ∈ (X.sight S i).1.rows cb.model.table,
      (⟨cb.model.ct, r cb.model.pk⟩ : Mark) ∈ added ∨ Copied S cb X.db (X.sight S i).1 r := by
  rcases sight_cases X S i with ⟨T, h1, h2⟩ | h2
  · rw [h2]
    have hs := hX.sessions i T h1
    exact ⟨hs.merged_keysOk hX.keys hX.keysOk, fun t => nodup_merge (hs.mergeable hX.keys t),
      fun C hC h => hs.merged hT hk hX.keys hC h,
      fun t κ hl => (merge_sameAt_cur (hs.mergeable hX.keys t) (hs.outside t κ hl)).symm,
      T.added, rfl, fun r hr => hs.origin hT hk hX.keys hr⟩
  · rw [h2]
    exact ⟨hX.keysOk, hX.keys, fun C _ h => h, fun t κ _ => SameAt.refl _ _ _, [], by simp, fun r hr =>
      .inr ⟨r, hr, rfl, fun _ _ => rfl, .inr rfl⟩⟩

theorem serverOk_stmt (hX : ServerOk S cb X) (hT : Tracks A.engine cb) (hN : NoReentry A.engine) (hk : S.key cb.model.table = cb.model.pk)
    (hm : ∀ t, ¬ Managed A.engine t (S.key t)) {i : Nat} {s : Stmt} (hL : LegalStmt A.engine cb (X.sight S i).1 s) (hs : KeepsKeys S (X.sight S i).1 s) : ServerOk S cb (A.move S X (.stmt i s)) := by
  simp only [App.move]
  cases he : A.exec s (X.sight S i).1 with
  | error e => exact hX
  | ok v =>
    simp only
    split
    · exact hX
    · rename_i hw
      split
      · exact hX
      · rename_i hne
        have hw' := Bool.eq_false_iff.2 hw
        obtain ⟨g1, g2, _, g4, added, g5, g6⟩ := sight_ok hX hT hk i
        obtain ⟨new, g7, g8⟩ := exec_withDirty (engine_of_exec he)
        -- the same statement, seeing only the markers of this session
        have hself := keyed_exec hT hN (copied_tracked S cb X.db) (g8 added) (legal_withDirty hL added) hs hm g1
          fun r hr => (g6 r hr).imp id fun h =>
            copied_tracked S cb X.db (X.sight S i).1 _ r r (fun _ _ => rfl) rfl ((viewed_keyed S hT).rows _ _ _ rfl) h
        have hadded : (⟨X.db, v, (locksOf S (A.changesOf s (X.sight S i).1)).append (X.sight S i).2⟩ : Txn).added = added ++ new := by
          simp only [Txn.added, g7, g5, List.append_assoc, List.drop_left]
        have hcop : ∀ r ∈ v.rows cb.model.table, (⟨cb.model.ct, r cb.model.pk⟩ : Mark) ∈ added ++ new ∨ Copied S cb X.db v r := fun r hr =>
          (hself.2 r hr).imp id fun h => copied_tracked S cb X.db _ v r r (fun _ _ => rfl) rfl ((viewed_keyed S hT).rows _ _ _ rfl) h
        have hout : ∀ t κ, (t, κ) ∉ ((locksOf S (A.changesOf s (X.sight S i).1)).append (X.sight S i).2).rows →
            SameAt (S.key t) κ (X.db.rows t) (v.rows t) := by
          intro t κ hl
          simp only [Locks.append, List.mem_append, not_or] at hl
          exact (g4 t κ hl.2).trans (exec_sameAt he hl.1)
        have hnew : SessionOk S cb X.db ⟨X.db, v, (locksOf S (A.changesOf s (X.sight S i).1)).append (X.sight S i).2⟩ := by
          refine ⟨hX.keys, keysDistinct_exec hN (engine_of_exec he) hs hm g2, hself.1, ⟨added ++ new, by rw [g7, g5, List.append_assoc]⟩, ?_, ?_, hout,
            fun _ _ _ => SameAt.refl _ _ _, ?_⟩
          · intro r hr
            by_cases hex : ∃ rv ∈ v.rows cb.model.table, rv cb.model.pk = r cb.model.pk
            · obtain ⟨rv, hrv, hp⟩ := hex
              rcases hcop rv hrv with h1 | ⟨rc, hrc, hp', ho, h1⟩
              · refine .inr (.inl ?_)
                unfold OwnMark
                rw [hadded, ← hp]
                exact h1
              · have : rc = r := eq_of_key (hX.keys _) hrc hr (by rw [hk]; exact hp'.trans hp)
                subst this
                rcases h1 with h1 | h1
                · exact .inl h1
                · refine .inr (.inr (.inr fun d hd => unmoved_of_keyed ?_))
                  have h2 := (viewed_keyed S hT).congr v rc rv hp' ho
                  exact List.map_inj_left.1 (h2.trans h1) d hd
            · refine .inr (.inr (.inl ⟨?_, fun rv hrv hp => hex ⟨rv, hrv, hp⟩⟩))
              apply Classical.byContradiction
              intro hl
              exact hex ⟨r, (hout _ _ hl r (by rw [hk])).1 hr, rfl⟩
          · intro r hr _
            rcases hcop r hr with h1 | ⟨rc, hrc, hp', ho, _⟩
            · refine .inl ?_
              unfold OwnMark
              rw [hadded]
              exact h1
            · exact .inr ⟨rc, hrc, hp', ho⟩
          · simp only [Locks.append]
            intro h0
            exact hne (List.append_eq_nil_iff.1 h0).1
        have hrows : ∀ j U, i ≠ j → X.sessions[j]? = some (some U) →
            ∀ l ∈ ((locksOf S (A.changesOf s (X.sight S i).1)).append (X.sight S i).2).rows, l ∉ U.locks.rows := by
          intro j U hij hU l hl
          simp only [Locks.append, List.mem_append] at hl
          rcases hl with hl | hl
          · exact apart_of_free (free_of_waits hw' (by simpa using Ne.symm hij) hU) l hl
          · rcases sight_cases X S i with ⟨T, h1, h2⟩ | h2
            · rw [h2] at hl
              exact hX.apart i j T U hij h1 hU l hl
            · rw [h2] at hl; simp [Locks.free] at hl
        refine ⟨hX.keys, hX.keysOk, hX.stale, ?_, ?_⟩
        · intro j U hU
          rcases getElem?_set_some hU with ⟨_, h1⟩ | ⟨_, h1⟩
          · simp only [Option.some.injEq] at h1
            subst h1
            exact hnew
          · exact hX.sessions j U h1
        · intro j j' U U' hjj hU hU' l hl hl'
          rcases getElem?_set_some hU with ⟨e1, h1⟩ | ⟨e1, h1⟩ <;> rcases getElem?_set_some hU' with ⟨e2, h2⟩ | ⟨e2, h2⟩
          · exact hjj (e1.symm.trans e2)
          · simp only [Option.some.injEq] at h1
            subst h1
            exact hrows j' U' (e1 ▸ hjj) h2 l hl hl'
          · simp only [Option.some.injEq] at h2
            subst h2
            exact hrows j U e1 h1 l hl' hl
          · exact hX.apart j j' U U' hjj h1 h2 l hl hl'

theorem serverOk_close (hX : ServerOk S cb X) (i : Nat) : ServerOk S cb ⟨X.db, X.sessions.set i none⟩ := by
  refine ⟨hX.keys, hX.keysOk, hX.stale, ?_, ?_⟩
  · intro j U hU
    rcases getElem?_set_some hU with ⟨_, h1⟩ | ⟨_, h1⟩
    · simp at h1
    · exact hX.sessions j U h1
  · intro j j' U U' hjj hU hU'
    rcases getElem?_set_some hU with ⟨_, h1⟩ | ⟨_, h1⟩
    · simp at h1
    · rcases getElem?_set_some hU' with ⟨_, h2⟩ | ⟨_, h2⟩
      · simp at h2
      · exact hX.apart j j' U U' hjj h1 h2

theorem serverOk_commit (hX : ServerOk S cb X) (hT : Tracks A.engine cb) (hk : S.key cb.model.table = cb.model.pk) (i : Nat) :
    ServerOk S cb (A.move S X (.commit i)) := by
  simp only [App.move]
  obtain ⟨g1, g2, g3, _⟩ := sight_ok hX hT hk i
  refine ⟨g2, g1, g3 _ (fresh_keyed S cb) hX.stale, ?_, (serverOk_close hX i).apart⟩
  intro j U hU
  rcases getElem?_set_some hU with ⟨_, h1⟩ | ⟨hij, h1⟩
  · simp at h1
  · have hs := hX.sessions j U h1
    refine ⟨hs.nbase, hs.nview, hs.keysOk, hs.more, g3 _ (heedful_tracked S hT U) hs.heeds, hs.own, hs.outside, ?_, hs.wrote⟩
    intro t κ hl
    refine (hs.inside t κ hl).trans ?_
    rcases sight_cases X S i with ⟨T, h2, h3⟩ | h3
    · rw [h3]
      have hs' := hX.sessions i T h2
      exact (merge_sameAt_cur (hs'.mergeable hX.keys t) (hs'.outside t κ fun hl' => hX.apart i j T U hij h2 h1 _ hl' hl)).symm
    · rw [h3]; exact SameAt.refl _ _ _

/-! ## flush() -/

/-- What saving the object of a marker does: nothing, or one UPDATE that leaves keys alone and writes rows that are locked. -/
theorem saveObject_stmt' (hF : Flushable A D om cb X.db) (hU : KeysUnique A X.db) (hS : ∀ om ∈ A.models, S.key om.model.table = om.model.pk)
    {m : Mark} {db1 : Db} (h : A.saveObject m X.db = .ok db1) :
    db1 = X.db ∨ ∃ om' ∈ A.models, ∃ mem, A.exec (saveUpdate om' mem) X.db = .ok db1 ∧ LegalStmt A.engine cb X.db (saveUpdate om' mem) ∧
      KeepsKeys S X.db (saveUpdate om' mem) ∧ A.flushChanges m X.db = A.changesOf (saveUpdate om' mem) X.db := by
  simp only [App.saveObject] at h
  cases hc : A.contentObject X.db m with
  | error e => rw [hc] at h; simp at h
  | ok o =>
    rw [hc] at h
    cases o with
    | none => simp only [Except.ok.injEq] at h; exact .inl h.symm
    | some p =>
      obtain ⟨om', r⟩ := p
      simp only at h
      cases hs : A.save om' r X.db with
      | error e => rw [hs] at h; simp at h
      | ok q =>
        rw [hs] at h
        simp only [Except.ok.injEq] at h
        subst h
        have hcc := hc
        simp only [App.contentObject] at hcc
        cases hfind : A.models.find? (fun om => om.model.ct == m.ct) with
        | none => rw [hfind] at hcc; simp at hcc
        | some om2 =>
          rw [hfind] at hcc
          simp only at hcc
          cases hrow : (X.db.rows om2.model.table).find? (isRowOf om2.model m.oid) with
          | none => rw [hrow] at hcc; simp at hcc
          | some r2 =>
            rw [hrow] at hcc
            simp only [Except.ok.injEq, Option.some.injEq, Prod.mk.injEq] at hcc
            obtain ⟨rfl, rfl⟩ := hcc
            have hom' : om2 ∈ A.models := List.mem_of_find?_eq_some hfind
            obtain ⟨mem, hpre, hSv⟩ := saved_of_save hU hom' (hF.safe.kept om2 hom' om2 hom' rfl) hrow hs
            refine .inr ⟨om2, hom', mem, ?_, saved_legal hF hom' mem X.db, ?_, ?_⟩
            · unfold App.exec
              rw [hSv.exec]
            · intro x r
              have := hF.safe.kept om2 hom' om2 hom' rfl
              rw [hS om2 hom']
              exact if_neg this
            · simp only [App.flushChanges, hc, hpre]

theorem saveObject_stmt (hF : Flushable A D om cb X.db) (hU : KeysUnique A X.db) (hS : ∀ om ∈ A.models, S.key om.model.table = om.model.pk)
    {m : Mark} {db1 : Db} (h : A.saveObject m X.db = .ok db1) :
    db1 = X.db ∨ ∃ om' mem, A.exec (saveUpdate om' mem) X.db = .ok db1 ∧ LegalStmt A.engine cb X.db (saveUpdate om' mem) ∧
      KeepsKeys S X.db (saveUpdate om' mem) ∧ A.flushChanges m X.db = A.changesOf (saveUpdate om' mem) X.db :=
  (saveObject_stmt' hF hU hS h).imp id fun ⟨om', _, h⟩ => ⟨om', h⟩

theorem serverOk_flushOne (hX : ServerOk S cb X) (hk : S.key cb.model.table = cb.model.pk) (hm : ∀ t, ¬ Managed A.engine t (S.key t))
    (hS : ∀ om ∈ A.models, S.key om.model.table = om.model.pk) {m : Mark} (hF : Flushable A D om cb X.db) (hU : KeysUnique A X.db)
    (hn : A.flushWaits S m X = false → ∀ db', A.flushOne m X.db = .ok db' → ∀ T, some T ∈ X.sessions →
      Undisturbed S cb m db' T ∨ ∀ r ∈ db'.rows cb.model.table, Heedful S cb T db' r) :
    ServerOk S cb (A.move S X (.flushOne m)) := by
  simp only [App.move]
  split
  · exact hX
  · rename_i hw
    have hw' := Bool.eq_false_iff.2 hw
    cases hf : A.flushOne m X.db with
    | error e => exact hX
    | ok db' =>
      have hT := tracks_of_installed hF.installed hF.declared
      have hG := good_flushOne ⟨hF, hU, hX.keysOk, staleMarked_iff.2 hX.stale⟩ hf
      have hd : KeysDistinct S db' := by
        simp only [App.flushOne] at hf
        cases h1 : A.saveObject m X.db with
        | error e => rw [h1] at hf; simp at hf
        | ok db1 =>
          rw [h1] at hf
          simp only [Except.ok.injEq] at hf
          subst hf
          rcases saveObject_stmt hF hU hS h1 with rfl | ⟨om', mem, he, _, hK, _⟩
          · exact hX.keys
          · exact (show KeysDistinct S db1 from keysDistinct_exec hF.noReentry (engine_of_exec he) hK hm hX.keys)
      refine ⟨hd, hG.keysOk, staleMarked_iff.1 hG.stale, ?_, hX.apart⟩
      intro j T hj
      have hs := hX.sessions j T hj
      have hun := hn hw' db' hf T (List.mem_of_getElem? hj)
      -- the save
      have hsave : ∃ db1, A.saveObject m X.db = .ok db1 ∧ db' = db1.dropMarks m := by
        simp only [App.flushOne] at hf
        cases h1 : A.saveObject m X.db with
        | error e => rw [h1] at hf; simp at hf
        | ok db1 => rw [h1] at hf; simp only [Except.ok.injEq] at hf; exact ⟨db1, rfl, hf.symm⟩
      obtain ⟨db1, h1, rfl⟩ := hsave
      have hrows : (db1.dropMarks m).rows = db1.rows := rfl
      have hin : ∀ t κ, (t, κ) ∈ T.locks.rows → SameAt (S.key t) κ (T.base.rows t) (db1.rows t) := by
        intro t κ hl
        refine (hs.inside t κ hl).trans ?_
        rcases saveObject_stmt hF hU hS h1 with rfl | ⟨om', mem, he, _, _, hch⟩
        · exact SameAt.refl _ _ _
        · refine exec_sameAt he ?_
          rw [← hch]
          intro hl'
          have := free_of_waits hw' (by simp) hj
          exact apart_of_free this (t, κ) (by simp only [Locks.append, List.mem_append]; exact .inl hl') hl
      have hM : MergeableDb S T.base T.view (db1.dropMarks m) := by
        intro t
        refine ⟨hs.nbase t, hs.nview t, hd t, fun κ => ?_⟩
        by_cases hl : (t, κ) ∈ T.locks.rows
        · exact .inr (hin t κ hl)
        · exact .inl (hs.outside t κ hl)
      have hheed : ∀ r ∈ db1.rows cb.model.table, Marked cb.model db1 r ∨ Heedful S cb T db1 r := by
        rcases saveObject_stmt hF hU hS h1 with rfl | ⟨om', mem, he, hL, hK, _⟩
        · exact hs.heeds
        · exact (keyed_exec hT hF.noReentry (heedful_tracked S hT T) (engine_of_exec he) hL hK hm hX.keysOk hs.heeds).2
      refine ⟨hs.nbase, hs.nview, hs.keysOk, hs.more, ?_, hs.own, hs.outside, hin, hs.wrote⟩
      intro r hr
      by_cases hmr : m = ⟨cb.model.ct, r cb.model.pk⟩
      · right
        rcases hun with hun | hun
        case inr => exact hun r hr
        rcases hun r hr hmr with h2 | h2 | h2
        · exact .inl (by unfold OwnMark; rw [← hmr]; exact h2)
        · refine .inr (.inl ?_)
          by_cases hl : (cb.model.table, r cb.model.pk) ∈ T.locks.rows
          · refine ⟨hl, fun v hv hp => h2 v ?_ hp⟩
            refine merge_of_view (hM cb.model.table) hv ?_
            have := hin _ _ hl
            rw [hk] at this ⊢
            rw [hp]
            exact this
          · refine absurd rfl (h2 r (merge_of_cur (hM cb.model.table) hr ?_))
            have := hs.outside _ _ hl
            rw [hk] at this ⊢
            exact this
        · exact .inr (.inr fun d hd => unmoved_of_merge hM (List.map_inj_left.1 h2 d hd))
      · rcases hheed r hr with h2 | h2
        · left
          refine List.mem_filter.2 ⟨h2, ?_⟩
          simpa using Ne.symm hmr
        · right
          exact heedful_tracked S hT T db1 _ r r (fun _ _ => rfl) rfl ((viewed_keyed S hT).rows _ _ _ rfl) h2

theorem serverOk_moves (hT : Tracks A.engine cb) (hN : NoReentry A.engine) (hk : S.key cb.model.table = cb.model.pk)
    (hm : ∀ t, ¬ Managed A.engine t (S.key t)) (hS : ∀ om ∈ A.models, S.key om.model.table = om.model.pk) :
    ∀ (μs : List Move) {X : DbServer}, ServerOk S cb X → Orderly A S D om cb μs X →
    FlushApart A S cb μs X → ServerOk S cb (A.moves S μs X)
  | [], _, hX, _, _ => hX
  | μ :: μs, X, hX, ho, hf => by
    simp only [App.moves]
    refine serverOk_moves hT hN hk hm hS μs ?_ ho.2 hf.2
    cases μ with
    | stmt i s => exact serverOk_stmt hX hT hN hk hm ho.1.1 ho.1.2
    | commit i => exact serverOk_commit hX hT hk i
    | rollback i => exact serverOk_close hX i
    | flushOne m => exact serverOk_flushOne hX hk hm hS ho.1.1 ho.1.2 fun hw db' h T hT => .inl (hf.1 hw db' h T hT)

/-- flush() that is at work only between transactions never meets uncommitted changes. -/
theorem flushApart_of_alone : ∀ (μs : List Move) {X : DbServer}, FlushAlone A S μs X → FlushApart A S cb μs X
  | [], _, _ => trivial
  | μ :: μs, X, h => by
    refine ⟨?_, flushApart_of_alone μs h.2⟩
    cases μ with
    | flushOne m => exact fun _ _ _ T hT => absurd (h.1 _ hT) (by simp)
    | _ => trivial

/-- Sessions that have written something hold a lock. -/
def HoldsLocks (X : DbServer) : Prop := ∀ T, some T ∈ X.sessions → T.locks.rows ≠ []

theorem locked_move (h : HoldsLocks X) (μ : Move) : HoldsLocks (A.move S X μ) := by
  have hset : ∀ (i : Nat) (db : Db) (a : Option Txn), (∀ T, a = some T → T.locks.rows ≠ []) → HoldsLocks ⟨db, X.sessions.set i a⟩ := by
    intro i db a ha T hT
    rcases List.mem_or_eq_of_mem_set hT with h1 | h1
    · exact h T h1
    · exact ha T h1.symm
  cases μ with
  | stmt i s =>
    simp only [App.move]
    split
    · exact h
    · split
      · exact h
      · split
        · exact h
        · rename_i hne
          refine hset i _ _ fun T hT => ?_
          simp only [Option.some.injEq] at hT
          subst hT
          simp only [Locks.append]
          exact fun h0 => hne (List.append_eq_nil_iff.1 h0).1
  | commit i => exact hset i _ _ (by simp)
  | rollback i => exact hset i _ _ (by simp)
  | flushOne m =>
    simp only [App.move]
    split
    · exact h
    · split
      · exact h
      · exact h

/-- On sqlite flush() waits for a session that has written something. -/
theorem flushApart_sqlite (hb : A.engine.backend = .sqlite) : ∀ (μs : List Move) {X : DbServer}, HoldsLocks X → FlushApart A S cb μs X
  | [], _, _ => trivial
  | μ :: μs, X, h => by
    refine ⟨?_, flushApart_sqlite hb μs (locked_move h μ)⟩
    cases μ with
    | flushOne m =>
      intro hw db' _ T hT
      exfalso
      obtain ⟨j, hj⟩ := List.getElem?_of_mem hT
      have := free_of_waits hw (by simp) hj
      rw [hb] at this
      simp only [Locks.conflict, Bool.and_eq_false_iff, Bool.not_eq_false', List.isEmpty_iff, Locks.append, markLock] at this
      rcases this with h1 | h1
      · simp at h1
      · exact h T hT h1
    | _ => trivial

end

end Denorm
