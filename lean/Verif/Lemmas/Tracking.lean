import Verif.Spec.Affected
import Verif.Lemmas.TriggerSet
/-!
# The tracking invariant

While a statement runs: every row of the declaring model is marked, or some pending trigger action will mark it, or nothing
it depends on has changed.
-/
namespace Denorm

/-- The table whose rows connect, the column with this model's key, the column identifying the other row. -/
def Dep.links (d : Dep) : Option (TableName × Col × Col) :=
  match d.rel with
  | .backward f => some (d.other.table, f.column, d.other.pk)
  | .forwardM2M (.m2m m) => some (m.through, m.colName, m.revName)
  | .backwardM2M (.m2m m) => some (m.through, m.revName, m.colName)
  | _ => none

/-- The triggers dependency `d` needs are installed and watch what is read. -/
def DepTracks (E : Engine) (d : Dep) (reads : List Col) : Prop :=
  match d.rel with
  | .forward f =>
    On E d.other.table .update reads none (.markSelect d.this.ct d.this.pk d.this.table f.column .new d.other.pk false) ∧
    On E d.other.table .insert [] none (.markSelect d.this.ct d.this.pk d.this.table f.column .new d.other.pk false) ∧
    On E d.other.table .delete [] none (.markSelect d.this.ct d.this.pk d.this.table f.column .old d.other.pk false)
  | .backward f =>
    On E d.other.table .update (f.column :: reads) none
      (.markSelect d.this.ct f.column d.other.table d.other.pk .new d.other.pk false) ∧
    On E d.other.table .update (f.column :: reads) none (.markValues d.this.ct .old f.column false) ∧
    On E d.other.table .insert [] none (.markSelect d.this.ct f.column d.other.table d.other.pk .new d.other.pk false) ∧
    On E d.other.table .delete [] none (.markValues d.this.ct .old f.column false)
  | .forwardM2M (.generic g) =>
    let ctf := some (g.ctFieldName ++ "_id", d.this.ct)
    let cols := (g.ctFieldName ++ "_id") :: g.objectIdField :: reads
    On E g.remoteTable .update cols ctf (.markValues d.this.ct .new g.objectIdField true) ∧
    On E g.remoteTable .update cols ctf (.markValues d.this.ct .old g.objectIdField true) ∧
    On E g.remoteTable .insert [] ctf (.markValues d.this.ct .new g.objectIdField true) ∧
    On E g.remoteTable .delete [] ctf (.markValues d.this.ct .old g.objectIdField true)
  | .backwardM2M (.generic _) => False
  | .forwardM2M (.m2m m) =>
    On E m.through .update [m.colName, m.revName] none (.markValues d.this.ct .new m.colName true) ∧
    On E m.through .update [m.colName, m.revName] none (.markValues d.this.ct .old m.colName true) ∧
    On E m.through .insert [] none (.markValues d.this.ct .new m.colName true) ∧
    On E m.through .delete [] none (.markValues d.this.ct .old m.colName true) ∧
    On E d.other.table .update reads none (.markSelect d.this.ct m.colName m.through m.revName .new d.other.pk true)
  | .backwardM2M (.m2m m) =>
    On E m.through .update [m.colName, m.revName] none (.markValues d.this.ct .new m.revName true) ∧
    On E m.through .update [m.colName, m.revName] none (.markValues d.this.ct .old m.revName true) ∧
    On E m.through .insert [] none (.markValues d.this.ct .new m.revName true) ∧
    On E m.through .delete [] none (.markValues d.this.ct .old m.revName true) ∧
    On E d.other.table .update reads none (.markSelect d.this.ct m.revName m.through m.colName .new d.other.pk true)

/-- What following the relations of a callback while a statement runs rests on. -/
structure Ground (E : Engine) (cb : Callback) : Prop where
  this : ∀ d ∈ cb.deps, d.dep.this = cb.model
  through : ∀ d ∈ cb.deps, ∀ tbl c k, d.dep.m2mTable = some (tbl, c, k) → tbl ≠ d.dep.other.table
  pks : ∀ p ∈ cb.pks, ¬ Managed E p.1 p.2
  linkCol : ∀ d ∈ cb.deps, ∀ tbl c k, d.dep.m2mTable = some (tbl, c, k) → ¬ Managed E tbl k

/-- What the tracking of a callback's dependencies rests on. -/
structure Follows (E : Engine) (cb : Callback) : Prop extends Ground E cb where
  deps : ∀ d ∈ cb.deps, DepTracks E d.dep d.reads

/-- What the tracking of a callback rests on. -/
structure Tracks (E : Engine) (cb : Callback) : Prop extends Follows E cb where
  selfUpd : On E cb.model.table .update cb.ownCols none (.markValues cb.model.ct .new cb.model.pk true)
  selfIns : On E cb.model.table .insert [] none (.markValues cb.model.ct .new cb.model.pk true)

instance {E : Engine} {cb : Callback} : CoeOut (Tracks E cb) (Follows E cb) := ⟨Tracks.toFollows⟩

/-- A pending action will mark row `r`. -/
def Covers (cb : Callback) (db : Db) (r : Row) : Item → Prop
  | .act _ ch (.markValues ct s c _) => ct = cb.model.ct ∧ ch.side s c = r cb.model.pk
  | .act _ ch (.markSelect ct sel t k s c _) => ct = cb.model.ct ∧
    ((t = cb.model.table ∧ sel = cb.model.pk ∧ (∃ d ∈ cb.deps, k ∈ d.dep.ownKeys) ∧ Val.sqlEq (r k) (ch.side s c) = true) ∨
     (∃ d ∈ cb.deps, d.dep.links = some (t, sel, k)) ∧
      ∃ x ∈ db.rows t, Val.sqlEq (x k) (ch.side s c) = true ∧ x sel = r cb.model.pk)
  | _ => False

/-! ## Firing -/

/-- No trigger that would fire for the change is blocked because it is already running. -/
def NotBlocked (E : Engine) (fr : Frame) (ch : Change) : Prop :=
  E.backend = .sqlite → ∀ tr ∈ E.triggers, tr.table = ch.table → tr.event = ch.event → tr.fires E.backend ch = true →
    tr.name ∉ fr.trigs

/-- The change concerns content type `ctf.2`. -/
def CtOk (ctf : Option (Col × Nat)) (ch : Change) : Prop :=
  ∀ p, ctf = some p → match ch.event with
    | .insert => hasCt p.1 p.2 ch.new = true
    | .delete => hasCt p.1 p.2 ch.old = true
    | .update => hasCt p.1 p.2 ch.old = true ∨ hasCt p.1 p.2 ch.new = true

theorem On.fired {E : Engine} {t : TableName} {ev : Event} {cols : List Col} {ctf : Option (Col × Nat)} {a : Action}
    (h : On E t ev cols ctf a) {fr : Frame} {ch : Change} (ht : ch.table = t) (he : ch.event = ev)
    (hc : ev = .update → changedCols cols ch.old ch.new = true) (hct : CtOk ctf ch) (hb : NotBlocked E fr ch) :
    ∃ fr', Item.act fr' ch a ∈ E.fired fr ch := by
  obtain ⟨tr, htr, h1, h2, h3, h4, h5⟩ := h
  have hch : ev = .update → changedCols tr.fields ch.old ch.new = true := by
    intro hev
    obtain ⟨f, hf, hne⟩ := changedCols_iff.1 (hc hev)
    exact changedCols_iff.2 ⟨f, h3 f hf, hne⟩
  have hf : tr.fires E.backend ch = true := by
    subst h2
    unfold DbTrigger.fires
    unfold CtOk at hct
    rw [he] at hct
    rcases hev : tr.event with _ | _ | _ <;> simp only [hev] at hct hch ⊢
    · rcases h4 with h4 | h4 | ⟨p, h6, h7, h8⟩
      · simp [h4]
      · rw [h4]; cases E.backend <;> rfl
      · have := hct p h6
        rw [h7, h8]; cases E.backend <;> simp [this]
    · have hch := hch trivial
      rcases h4 with h4 | h4 | ⟨p, h6, h7, h8⟩
      · simp [h4, hch]
      · rw [h4]; cases E.backend <;> simp [hch]
      · have := hct p h6
        rw [h7, h8]
        cases E.backend <;> rcases this with this | this <;> simp [this, hch]
    · rcases h4 with h4 | h4 | ⟨p, h6, h7, h8⟩
      · simp [h4]
      · rw [h4]; cases E.backend <;> rfl
      · have := hct p h6
        rw [h7, h8]; cases E.backend <;> simp [this]
  refine ⟨_, mem_fired.2 ⟨tr, htr, ?_, a, h5, rfl⟩⟩
  simp only [Engine.enters, Bool.and_eq_true, decide_eq_true_eq, Bool.not_eq_true', Bool.and_eq_false_imp,
    decide_eq_false_iff_not]
  exact ⟨⟨⟨h1.trans ht.symm, h2.trans he.symm⟩, hf⟩, fun hs => hb hs tr htr (h1.trans ht.symm) (h2.trans he.symm) hf⟩

/-! ## One row operation -/

/-- How one row operation changes a filtered and expanded list. -/
theorem filter_effect {β : Type _} {rs rs' : List Row} {x : Option (Event × Row × Row)} (h : Effect rs rs' x)
    (p : Row → Bool) (g : Row → List β) :
    (rs'.filter p).flatMap g = (rs.filter p).flatMap g ∨
    (∃ n, x = some (.insert, n, n) ∧ p n = true) ∨
    (∃ o, x = some (.delete, o, o) ∧ p o = true) ∨
    (∃ o n, x = some (.update, o, n) ∧ o ∈ rs ∧ n ∈ rs' ∧ (p o = true ∨ p n = true) ∧ (p o ≠ p n ∨ g o ≠ g n)) := by
  cases h with
  | none => exact .inl rfl
  | ins r =>
    by_cases hp : p r = true
    · exact .inr (.inl ⟨r, rfl, hp⟩)
    · left; simp [List.filter_append, hp]
  | upd l1 l2 old new hrs =>
    subst hrs
    by_cases hs : p old = p new ∧ g old = g new
    · left
      by_cases hp : p new = true
      · simp [List.filter_append, hs.1, hp, hs.2]
      · simp [List.filter_append, hs.1, hp]
    · by_cases hp : p old = true ∨ p new = true
      · right; right; right
        refine ⟨old, new, rfl, by simp, by simp, hp, ?_⟩
        by_cases h1 : p old = p new
        · exact .inr fun h2 => hs ⟨h1, h2⟩
        · exact .inl h1
      · left
        have h1 : p old = false := by simpa using fun h => hp (.inl h)
        have h2 : p new = false := by simpa using fun h => hp (.inr h)
        simp [List.filter_append, h1, h2]
  | del l1 l2 old hrs =>
    subst hrs
    by_cases hp : p old = true
    · exact .inr (.inr (.inl ⟨old, rfl, hp⟩))
    · left; simp [List.filter_append, hp]

theorem seen_filter (cols : List Col) (rs : List Row) (p : Row → Bool) :
    seen cols (rs.filter p) = (rs.filter p).flatMap fun o => [cols.map o] := by
  rw [seen, List.map_eq_flatMap]

theorem seen_flatMap (cols : List Col) (l : List Row) (f : Row → List Row) :
    seen cols (l.flatMap f) = l.flatMap fun a => seen cols (f a) := by
  simp [seen, List.map_flatMap]

theorem map_ne {cols : List Col} {o n : Row} (h : ([cols.map o] : List (List Val)) ≠ [cols.map n]) :
    changedCols cols o n = true := by
  rw [changedCols_iff]
  apply Classical.byContradiction
  intro hn
  apply h
  congr 1
  apply List.map_congr_left
  intro a ha
  apply Classical.byContradiction
  intro hne
  exact hn ⟨a, ha, hne⟩

/-- The write of one row, as seen by callback `cb`. -/
structure WriteOk (E : Engine) (cb : Callback) (fr : Frame) (t : TableName) (db db' : Db)
    (x : Option (Event × Row × Row)) : Prop where
  eff : Effect (db.rows t) (db'.rows t) x
  other : ∀ t', t' ≠ t → db'.rows t' = db.rows t'
  dirty : db'.dirty = db.dirty
  keep : ∀ o n, x = some (.update, o, n) → ∀ p ∈ cb.pks, p.1 = t → n p.2 = o p.2
  insOk : ∀ o n, x = some (.insert, o, n) → ∀ p ∈ cb.pks, p.1 = t → n p.2 ≠ .null
  insLink : ∀ o n, x = some (.insert, o, n) → ∀ d ∈ cb.deps, d.dep.other.table = t → Unlinked d.dep db n
  delLink : ∀ o n, x = some (.delete, o, n) → ∀ d ∈ cb.deps, d.dep.other.table = t → Unlinked d.dep db o
  free : ∀ ev o n, x = some (ev, o, n) → NotBlocked E fr ⟨t, ev, o, n⟩
  keys : KeysOk cb db

/-- The actions queued for the write. -/
def newActs (E : Engine) (fr : Frame) (t : TableName) (x : Option (Event × Row × Row)) : List Item :=
  (effectChange t x).flatMap (E.fired fr)

theorem mem_newActs {E : Engine} {fr : Frame} {t : TableName} {ev : Event} {o n : Row} {it : Item}
    (h : it ∈ E.fired fr ⟨t, ev, o, n⟩) : it ∈ newActs E fr t (some (ev, o, n)) := by
  simpa [newActs, effectChange] using h

theorem CtOk.none (ch : Change) : CtOk none ch := by intro p h; simp at h

section
variable {E : Engine} {cb : Callback} {fr : Frame} {t : TableName} {db db' : Db} {x : Option (Event × Row × Row)}

theorem WriteOk.rows_eq (h : WriteOk E cb fr t db db' x) {t' : TableName} (hx : x = none) : db'.rows t' = db.rows t' := by
  subst hx
  by_cases ht : t' = t
  · subst ht
    generalize hr : db'.rows t' = rs
    have := h.eff
    rw [hr] at this
    cases this
    rfl
  · exact h.other _ ht

theorem WriteOk.insMem (h : WriteOk E cb fr t db db' x) {o n : Row} (hx : x = some (.insert, o, n)) : n ∈ db'.rows t := by
  subst hx
  generalize hr : db'.rows t = rs
  have := h.eff
  rw [hr] at this
  cases this
  simp

/-- Fires an action for the write. -/
theorem WriteOk.fire (h : WriteOk E cb fr t db db' x) {ev : Event} {o n : Row} (hx : x = some (ev, o, n)) {cols : List Col}
    {ctf : Option (Col × Nat)} {a : Action} (hon : On E t ev cols ctf a)
    (hc : ev = .update → changedCols cols o n = true) (hct : CtOk ctf ⟨t, ev, o, n⟩) :
    ∃ fr', Item.act fr' ⟨t, ev, o, n⟩ a ∈ newActs E fr t x := by
  obtain ⟨fr', hf⟩ := hon.fired (fr := fr) (ch := ⟨t, ev, o, n⟩) rfl rfl hc hct (h.free ev o n hx)
  subst hx
  exact ⟨fr', mem_newActs hf⟩

/-- The related rows of one row change only if the row will be marked: foreign key, this model to other. -/
theorem related_forward (hT : Follows E cb) (h : WriteOk E cb fr t db db' x) {d : DepRead} (hd : d ∈ cb.deps) {f : Field}
    (hf : d.dep.rel = .forward f) (r : Row) {cols : List Col}
    (hcols : d.dep.otherTable = t → ∀ o n, x = some (.update, o, n) → changedCols cols o n = true → changedCols d.reads o n = true) :
    seen cols (relatedRows d.dep db' r) = seen cols (relatedRows d.dep db r) ∨
      ∃ it ∈ newActs E fr t x, Covers cb db' r it := by
  have htr := hT.deps d hd
  have hth := hT.this d hd
  simp only [DepTracks, hf] at htr
  obtain ⟨t1, t2, t3⟩ := htr
  simp only [relatedRows, hf, seen_filter]
  by_cases ht : d.dep.other.table = t
  · rw [ht]
    have hown : ∃ d' ∈ cb.deps, f.column ∈ d'.dep.ownKeys := ⟨d, hd, by simp [Dep.ownKeys, hf]⟩
    have hpk : (d.dep.other.table, d.dep.other.pk) ∈ cb.pks :=
      List.mem_cons_of_mem _ (List.mem_map.2 ⟨d, hd, rfl⟩)
    rw [ht] at t1 t2 t3 hpk
    rcases filter_effect h.eff (fun o => Val.sqlEq (o d.dep.other.pk) (r f.column)) (fun o => [cols.map o])
      with he | ⟨n, hx, hp⟩ | ⟨o, hx, hp⟩ | ⟨o, n, hx, _, _, hor, hne⟩
    · exact .inl he
    · right
      obtain ⟨fr', hit⟩ := h.fire hx t2 (by simp) (CtOk.none _)
      refine ⟨_, hit, by rw [hth], .inl ⟨by rw [hth], by rw [hth], hown, ?_⟩⟩
      rw [Val.sqlEq_iff] at hp ⊢
      exact ⟨hp.1.symm, fun h0 => hp.2 (hp.1.trans h0)⟩
    · right
      obtain ⟨fr', hit⟩ := h.fire hx t3 (by simp) (CtOk.none _)
      refine ⟨_, hit, by rw [hth], .inl ⟨by rw [hth], by rw [hth], hown, ?_⟩⟩
      rw [Val.sqlEq_iff] at hp ⊢
      exact ⟨hp.1.symm, fun h0 => hp.2 (hp.1.trans h0)⟩
    · right
      have hk := h.keep o n hx _ hpk rfl
      simp only at hk
      have hp : Val.sqlEq (n d.dep.other.pk) (r f.column) = true := by
        rcases hor with hor | hor
        · simpa [hk] using hor
        · exact hor
      have hne' : changedCols d.reads o n = true := by
        rcases hne with hne | hne
        · exact absurd (by rw [hk]) hne
        · exact hcols (by simp [Dep.otherTable, hf, ht]) _ _ hx (map_ne hne)
      obtain ⟨fr', hit⟩ := h.fire hx t1 (fun _ => hne') (CtOk.none _)
      refine ⟨_, hit, by rw [hth], .inl ⟨by rw [hth], by rw [hth], hown, ?_⟩⟩
      rw [Val.sqlEq_iff] at hp ⊢
      exact ⟨hp.1.symm, fun h0 => hp.2 (hp.1.trans h0)⟩
  · left; rw [h.other _ ht]

theorem related_backward (hT : Follows E cb) (h : WriteOk E cb fr t db db' x) {d : DepRead} (hd : d ∈ cb.deps) {f : Field}
    (hf : d.dep.rel = .backward f) (r : Row) {cols : List Col}
    (hcols : d.dep.otherTable = t → ∀ o n, x = some (.update, o, n) → changedCols cols o n = true → changedCols d.reads o n = true) :
    seen cols (relatedRows d.dep db' r) = seen cols (relatedRows d.dep db r) ∨
      ∃ it ∈ newActs E fr t x, Covers cb db' r it := by
  have htr := hT.deps d hd
  have hth := hT.this d hd
  simp only [DepTracks, hf] at htr
  obtain ⟨t1, t2, t3, t4⟩ := htr
  simp only [relatedRows, hf, seen_filter]
  by_cases ht : d.dep.other.table = t
  · have hlink : ∃ d' ∈ cb.deps, d'.dep.links = some (d.dep.other.table, f.column, d.dep.other.pk) :=
      ⟨d, hd, by simp [Dep.links, hf]⟩
    have hpk : (d.dep.other.table, d.dep.other.pk) ∈ cb.pks :=
      List.mem_cons_of_mem _ (List.mem_map.2 ⟨d, hd, rfl⟩)
    rw [ht] at t1 t2 t3 t4 hpk hlink ⊢
    rcases filter_effect h.eff (fun o => Val.sqlEq (o f.column) (r d.dep.this.pk)) (fun o => [cols.map o])
      with he | ⟨n, hx, hp⟩ | ⟨o, hx, hp⟩ | ⟨o, n, hx, hom, hnm, hor, hne⟩
    · exact .inl he
    · right
      obtain ⟨fr', hit⟩ := h.fire hx t3 (by simp) (CtOk.none _)
      refine ⟨_, hit, by rw [hth], .inr ⟨hlink, n, h.insMem hx, ?_, ?_⟩⟩
      · exact Val.sqlEq_iff.2 ⟨rfl, h.insOk _ _ hx _ hpk rfl⟩
      · rw [← hth]; exact (Val.sqlEq_iff.1 hp).1
    · right
      obtain ⟨fr', hit⟩ := h.fire hx t4 (by simp) (CtOk.none _)
      exact ⟨_, hit, by rw [hth], by rw [← hth]; exact (Val.sqlEq_iff.1 hp).1⟩
    · right
      have hk := h.keep o n hx _ hpk rfl
      simp only at hk
      have hch : changedCols (f.column :: d.reads) o n = true := by
        rcases hne with hne | hne
        · refine changedCols_iff.2 ⟨f.column, by simp, fun h0 => hne (by rw [h0])⟩
        · obtain ⟨c, hc, hcn⟩ := changedCols_iff.1 (hcols (by simp [Dep.otherTable, hf, ht]) _ _ hx (map_ne hne))
          exact changedCols_iff.2 ⟨c, List.mem_cons_of_mem _ hc, hcn⟩
      rcases hor with hp | hp
      · obtain ⟨fr', hit⟩ := h.fire hx t2 (fun _ => hch) (CtOk.none _)
        exact ⟨_, hit, by rw [hth], by rw [← hth]; exact (Val.sqlEq_iff.1 hp).1⟩
      · obtain ⟨fr', hit⟩ := h.fire hx t1 (fun _ => hch) (CtOk.none _)
        refine ⟨_, hit, by rw [hth], .inr ⟨hlink, n, hnm, ?_, ?_⟩⟩
        · refine Val.sqlEq_iff.2 ⟨rfl, ?_⟩
          rw [hk]
          exact h.keys _ hpk o hom
        · rw [← hth]; exact (Val.sqlEq_iff.1 hp).1
  · left; rw [h.other _ ht]

theorem related_generic (hT : Follows E cb) (h : WriteOk E cb fr t db db' x) {d : DepRead} (hd : d ∈ cb.deps)
    {g : GenericRel} (hf : d.dep.rel = .forwardM2M (.generic g)) (r : Row) {cols : List Col}
    (hcols : d.dep.otherTable = t → ∀ o n, x = some (.update, o, n) → changedCols cols o n = true → changedCols d.reads o n = true) :
    seen cols (relatedRows d.dep db' r) = seen cols (relatedRows d.dep db r) ∨
      ∃ it ∈ newActs E fr t x, Covers cb db' r it := by
  have htr := hT.deps d hd
  have hth := hT.this d hd
  simp only [DepTracks, hf] at htr
  obtain ⟨t1, t2, t3, t4⟩ := htr
  simp only [relatedRows, hf, seen_filter]
  by_cases ht : g.remoteTable = t
  · rw [ht] at t1 t2 t3 t4 ⊢
    have hct : ∀ o : Row, (Val.sqlEq (o (g.ctFieldName ++ "_id")) (.int d.dep.this.ct) &&
        Val.sqlEq (o g.objectIdField) (r d.dep.this.pk)) = true →
        hasCt (g.ctFieldName ++ "_id") d.dep.this.ct o = true ∧ o g.objectIdField = r cb.model.pk := by
      intro o ho
      rw [Bool.and_eq_true] at ho
      exact ⟨ho.1, by rw [← hth]; exact (Val.sqlEq_iff.1 ho.2).1⟩
    rcases filter_effect h.eff _ (fun o => [cols.map o])
      with he | ⟨n, hx, hp⟩ | ⟨o, hx, hp⟩ | ⟨o, n, hx, hom, hnm, hor, hne⟩
    · exact .inl he
    · right
      obtain ⟨h1, h2⟩ := hct _ hp
      obtain ⟨fr', hit⟩ := h.fire hx t3 (by simp) (by intro p hp'; simp only [Option.some.injEq] at hp'; subst hp'; exact h1)
      exact ⟨_, hit, by rw [hth], h2⟩
    · right
      obtain ⟨h1, h2⟩ := hct _ hp
      obtain ⟨fr', hit⟩ := h.fire hx t4 (by simp) (by intro p hp'; simp only [Option.some.injEq] at hp'; subst hp'; exact h1)
      exact ⟨_, hit, by rw [hth], h2⟩
    · right
      have hch : changedCols ((g.ctFieldName ++ "_id") :: g.objectIdField :: d.reads) o n = true := by
        rcases hne with hne | hne
        · apply Classical.byContradiction
          intro hnc
          have := changedCols_false.1 (by simpa using hnc)
          apply hne
          rw [this (g.ctFieldName ++ "_id") (by simp), this g.objectIdField (by simp)]
        · obtain ⟨c, hc, hcn⟩ := changedCols_iff.1 (hcols (by simp [Dep.otherTable, hf, ht]) _ _ hx (map_ne hne))
          exact changedCols_iff.2 ⟨c, List.mem_cons_of_mem _ (List.mem_cons_of_mem _ hc), hcn⟩
      rcases hor with hp | hp
      · obtain ⟨h1, h2⟩ := hct _ hp
        obtain ⟨fr', hit⟩ := h.fire hx t2 (fun _ => hch)
          (by intro p hp'; simp only [Option.some.injEq] at hp'; subst hp'; exact .inl h1)
        exact ⟨_, hit, by rw [hth], h2⟩
      · obtain ⟨h1, h2⟩ := hct _ hp
        obtain ⟨fr', hit⟩ := h.fire hx t1 (fun _ => hch)
          (by intro p hp'; simp only [Option.some.injEq] at hp'; subst hp'; exact .inr h1)
        exact ⟨_, hit, by rw [hth], h2⟩
  · left; rw [h.other _ ht]

/-- Both directions of a many-to-many relation, in terms of its table and columns. -/
theorem related_m2m_aux (hT : Follows E cb) (h : WriteOk E cb fr t db db' x) {d : DepRead} (hd : d ∈ cb.deps)
    {tbl : TableName} {c k : Col} (hm : d.dep.m2mTable = some (tbl, c, k)) (hl : d.dep.links = some (tbl, c, k))
    {w : List Col} (hw : c ∈ w ∧ k ∈ w)
    (t1 : On E tbl .update w none (.markValues d.dep.this.ct .new c true))
    (t2 : On E tbl .update w none (.markValues d.dep.this.ct .old c true))
    (t3 : On E tbl .insert [] none (.markValues d.dep.this.ct .new c true))
    (t4 : On E tbl .delete [] none (.markValues d.dep.this.ct .old c true))
    (t5 : On E d.dep.other.table .update d.reads none (.markSelect d.dep.this.ct c tbl k .new d.dep.other.pk true)) (r : Row)
    {cols : List Col}
    (hcols : d.dep.other.table = t → ∀ o n, x = some (.update, o, n) → changedCols cols o n = true → changedCols d.reads o n = true)
    {β : Type _} (H : Row → List (List Val) → List β)
    (hH : tbl = t → ∀ o n, x = some (.update, o, n) → o c = n c → o k = n k → H o = H n) :
    (((db'.rows tbl).filter fun l => Val.sqlEq (l c) (r d.dep.this.pk)).flatMap fun l =>
      H l (seen cols ((db'.rows d.dep.other.table).filter fun o => Val.sqlEq (o d.dep.other.pk) (l k)))) =
    (((db.rows tbl).filter fun l => Val.sqlEq (l c) (r d.dep.this.pk)).flatMap fun l =>
      H l (seen cols ((db.rows d.dep.other.table).filter fun o => Val.sqlEq (o d.dep.other.pk) (l k)))) ∨
      ∃ it ∈ newActs E fr t x, Covers cb db' r it := by
  have hth := hT.this d hd
  have hne := hT.through d hd _ _ _ hm
  by_cases ht : tbl = t
  · subst ht
    rw [h.other d.dep.other.table (fun h0 => hne h0.symm)]
    rcases filter_effect h.eff (fun l => Val.sqlEq (l c) (r d.dep.this.pk)) (fun l => H l (seen cols
        ((db.rows d.dep.other.table).filter fun o => Val.sqlEq (o d.dep.other.pk) (l k))))
      with he | ⟨n, hx, hp⟩ | ⟨o, hx, hp⟩ | ⟨o, n, hx, hom, hnm, hor, hne'⟩
    · exact .inl he
    · right
      obtain ⟨fr', hit⟩ := h.fire hx t3 (by simp) (CtOk.none _)
      exact ⟨_, hit, by rw [hth], by rw [← hth]; exact (Val.sqlEq_iff.1 hp).1⟩
    · right
      obtain ⟨fr', hit⟩ := h.fire hx t4 (by simp) (CtOk.none _)
      exact ⟨_, hit, by rw [hth], by rw [← hth]; exact (Val.sqlEq_iff.1 hp).1⟩
    · right
      have hch : changedCols w o n = true := by
        apply Classical.byContradiction
        intro hnc
        have := changedCols_false.1 (by simpa using hnc)
        have h1 := this c hw.1
        have h2 := this k hw.2
        rcases hne' with hne' | hne'
        · exact hne' (by rw [h1])
        · exact hne' (by rw [hH rfl o n hx h1 h2, h2])
      rcases hor with hp | hp
      · obtain ⟨fr', hit⟩ := h.fire hx t2 (fun _ => hch) (CtOk.none _)
        exact ⟨_, hit, by rw [hth], by rw [← hth]; exact (Val.sqlEq_iff.1 hp).1⟩
      · obtain ⟨fr', hit⟩ := h.fire hx t1 (fun _ => hch) (CtOk.none _)
        exact ⟨_, hit, by rw [hth], by rw [← hth]; exact (Val.sqlEq_iff.1 hp).1⟩
  · rw [h.other tbl ht]
    by_cases hto : d.dep.other.table = t
    · have hpk : (d.dep.other.table, d.dep.other.pk) ∈ cb.pks :=
        List.mem_cons_of_mem _ (List.mem_map.2 ⟨d, hd, rfl⟩)
      rw [hto] at t5 hpk ⊢
      -- either nothing changes for any link, or some link is hit
      by_cases hall : ∀ l ∈ (db.rows tbl).filter (fun l => Val.sqlEq (l c) (r d.dep.this.pk)),
          seen cols ((db'.rows t).filter fun o => Val.sqlEq (o d.dep.other.pk) (l k)) =
          seen cols ((db.rows t).filter fun o => Val.sqlEq (o d.dep.other.pk) (l k))
      · left
        simp only [List.flatMap]
        rw [List.map_congr_left fun l hl => by rw [hall l hl]]
      · right
        have : ∃ l, l ∈ (db.rows tbl).filter (fun l => Val.sqlEq (l c) (r d.dep.this.pk)) ∧
            ¬ seen cols ((db'.rows t).filter fun o => Val.sqlEq (o d.dep.other.pk) (l k)) =
              seen cols ((db.rows t).filter fun o => Val.sqlEq (o d.dep.other.pk) (l k)) := by
          apply Classical.byContradiction
          intro hn
          apply hall
          intro l hl
          apply Classical.byContradiction
          intro hne
          exact hn ⟨l, hl, hne⟩
        obtain ⟨l, hlm, hneq⟩ := this
        rw [List.mem_filter] at hlm
        simp only [seen_filter] at hneq
        rcases filter_effect h.eff (fun o => Val.sqlEq (o d.dep.other.pk) (l k)) (fun o => [cols.map o])
          with he | ⟨n, hx, hp⟩ | ⟨o, hx, hp⟩ | ⟨o, n, hx, hom, hnm, hor, hne'⟩
        · exact absurd he hneq
        · exact absurd hp (h.insLink _ _ hx d hd hto _ _ _ hm l hlm.1)
        · exact absurd hp (h.delLink _ _ hx d hd hto _ _ _ hm l hlm.1)
        · have hk := h.keep o n hx _ hpk rfl
          simp only at hk
          have hp : Val.sqlEq (n d.dep.other.pk) (l k) = true := by
            rcases hor with hor | hor
            · simpa [hk] using hor
            · exact hor
          have hch : changedCols d.reads o n = true := by
            rcases hne' with hne' | hne'
            · exact absurd (by rw [hk]) hne'
            · exact hcols hto _ _ hx (map_ne hne')
          obtain ⟨fr', hit⟩ := h.fire hx t5 (fun _ => hch) (CtOk.none _)
          refine ⟨_, hit, by rw [hth], .inr ⟨⟨d, hd, hl⟩, l, ?_, ?_, ?_⟩⟩
          · rw [h.other tbl ht]; exact hlm.1
          · rw [Val.sqlEq_iff] at hp ⊢
            exact ⟨hp.1.symm, fun h0 => hp.2 (hp.1.trans h0)⟩
          · rw [← hth]; exact (Val.sqlEq_iff.1 hlm.2).1
    · left; rw [h.other _ hto]

theorem related_step (hT : Follows E cb) (h : WriteOk E cb fr t db db' x) {d : DepRead} (hd : d ∈ cb.deps) (r : Row) :
    seen d.reads (relatedRows d.dep db' r) = seen d.reads (relatedRows d.dep db r) ∨
      ∃ it ∈ newActs E fr t x, Covers cb db' r it := by
  have htr := hT.deps d hd
  rcases hf : d.dep.rel with f | f | (m | g) | (m | g)
  · exact related_forward hT h hd hf r fun _ _ _ _ h => h
  · exact related_backward hT h hd hf r fun _ _ _ _ h => h
  · simp only [DepTracks, hf] at htr
    obtain ⟨t1, t2, t3, t4, t5⟩ := htr
    have := related_m2m_aux (w := [m.colName, m.revName]) hT h hd (tbl := m.through) (c := m.colName) (k := m.revName)
      (by simp [Dep.m2mTable, hf]) (by simp [Dep.links, hf]) (by simp) t1 t2 t3 t4 t5 r
      (fun _ _ _ _ h => h) (fun _ s => s) (fun _ _ _ _ _ _ => rfl)
    simpa only [relatedRows, hf, seen_flatMap] using this
  · exact related_generic hT h hd hf r fun _ _ _ _ h => h
  · simp only [DepTracks, hf] at htr
    obtain ⟨t1, t2, t3, t4, t5⟩ := htr
    have := related_m2m_aux (w := [m.colName, m.revName]) hT h hd (tbl := m.through) (c := m.revName) (k := m.colName)
      (by simp [Dep.m2mTable, hf]) (by simp [Dep.links, hf]) (by simp) t1 t2 t3 t4 t5 r
      (fun _ _ _ _ h => h) (fun _ s => s) (fun _ _ _ _ _ _ => rfl)
    simpa only [relatedRows, hf, seen_flatMap] using this
  · simp [DepTracks, hf] at htr

/-- The related rows depend on the own row only through the primary key and the foreign key columns. -/
theorem related_congr {d : Dep} (hg : ∀ g, d.rel ≠ .backwardM2M (.generic g)) {r r' : Row} (hpk : r d.this.pk = r' d.this.pk)
    (hk : ∀ c ∈ d.ownKeys, r c = r' c) (db : Db) : relatedRows d db r = relatedRows d db r' := by
  rcases hf : d.rel with f | f | (m | g) | (m | g) <;> simp only [relatedRows, hf]
  · rw [hk f.column (by simp [Dep.ownKeys, hf])]
  · rw [hpk]
  · rw [hpk]
  · rw [hpk]
  · rw [hpk]
  · exact absurd hf (hg g)

theorem Follows.notBackGeneric (hT : Follows E cb) {d : DepRead} (hd : d ∈ cb.deps) :
    ∀ g, d.dep.rel ≠ .backwardM2M (.generic g) := by
  intro g hf
  have := hT.deps d hd
  simp [DepTracks, hf] at this

/-- A pending action that covers a row goes on covering it, or the write queues another one that does. -/
theorem covers_step (hT : Follows E cb) (h : WriteOk E cb fr t db db' x) {r r' : Row} {it : Item}
    (hpk : r cb.model.pk = r' cb.model.pk) (hk : ∀ c ∈ cb.ownCols, r c = r' c) (hc : Covers cb db r it) :
    Covers cb db' r' it ∨ ∃ it' ∈ newActs E fr t x, Covers cb db' r' it' := by
  rcases it with _ | ⟨fr0, ch, a⟩
  · exact absurd hc (by simp [Covers])
  rcases a with ⟨ct, s, c, q0⟩ | ⟨ct, sel, t0, k, s, c, q0⟩ | u
  · left; simp only [Covers] at hc ⊢; rw [← hpk]; exact hc
  · simp only [Covers] at hc
    obtain ⟨hct, ⟨h1, h2, ⟨d, hd, hdk⟩, h4⟩ | ⟨⟨d, hd, hdl⟩, y, hy, hyk, hysel⟩⟩ := hc
    · left
      refine ⟨hct, .inl ⟨h1, h2, ⟨d, hd, hdk⟩, ?_⟩⟩
      rw [← hk k]
      · exact h4
      · simp only [Callback.ownCols, List.cons_append, List.mem_cons, List.mem_append, List.mem_flatMap]
        exact .inr (.inr ⟨d, hd, hdk⟩)
    · have hth := hT.this d hd
      by_cases ht : t0 = t
      · subst ht
        -- what happens when the connecting row is changed or removed
        have hfire : ∀ o n, x = some (.update, o, n) → o = y → (Val.sqlEq (n k) (ch.side s c) = true ∧ n sel = r' cb.model.pk) ∨
            ∃ it' ∈ newActs E fr t0 x, Covers cb db' r' it' := by
          intro o n hx hoy
          subst hoy
          by_cases hsame : o k = n k ∧ o sel = n sel
          · left; rw [← hsame.1, ← hsame.2, ← hpk]; exact ⟨hyk, hysel⟩
          · right
            have htr := hT.deps d hd
            rcases hf : d.dep.rel with f | f | (m | g) | (m | g) <;> simp only [DepTracks, Dep.links, hf, Option.some.injEq, Prod.mk.injEq, reduceCtorEq] at htr hdl
            · obtain ⟨e1, e2, e3⟩ := hdl
              obtain ⟨t1, t2, t3, t4⟩ := htr
              subst e1 e2 e3
              have hpkm : (d.dep.other.table, d.dep.other.pk) ∈ cb.pks :=
                List.mem_cons_of_mem _ (List.mem_map.2 ⟨d, hd, rfl⟩)
              have hkk := h.keep o n hx _ hpkm rfl
              obtain ⟨fr', hit⟩ := h.fire hx t2
                (fun _ => changedCols_iff.2 ⟨f.column, by simp, fun h0 => hsame ⟨hkk.symm, h0⟩⟩) (CtOk.none _)
              exact ⟨_, hit, by rw [hth], by rw [← hpk]; exact hysel⟩
            · obtain ⟨e1, e2, e3⟩ := hdl
              obtain ⟨t1, t2, t3, t4, t5⟩ := htr
              subst e1 e2 e3
              obtain ⟨fr', hit⟩ := h.fire hx t2 (fun _ => by
                apply Classical.byContradiction
                intro hnc
                have := changedCols_false.1 (by simpa using hnc)
                exact hsame ⟨this _ (by simp), this _ (by simp)⟩) (CtOk.none _)
              exact ⟨_, hit, by rw [hth], by rw [← hpk]; exact hysel⟩
            · obtain ⟨e1, e2, e3⟩ := hdl
              obtain ⟨t1, t2, t3, t4, t5⟩ := htr
              subst e1 e2 e3
              obtain ⟨fr', hit⟩ := h.fire hx t2 (fun _ => by
                apply Classical.byContradiction
                intro hnc
                have := changedCols_false.1 (by simpa using hnc)
                exact hsame ⟨this _ (by simp), this _ (by simp)⟩) (CtOk.none _)
              exact ⟨_, hit, by rw [hth], by rw [← hpk]; exact hysel⟩
        have hdel : ∀ o n, x = some (.delete, o, n) → o = y → ∃ it' ∈ newActs E fr t0 x, Covers cb db' r' it' := by
          intro o n hx hoy
          subst hoy
          have htr := hT.deps d hd
          rcases hf : d.dep.rel with f | f | (m | g) | (m | g) <;> simp only [DepTracks, Dep.links, hf, Option.some.injEq, Prod.mk.injEq, reduceCtorEq] at htr hdl
          · obtain ⟨e1, e2, e3⟩ := hdl
            obtain ⟨t1, t2, t3, t4⟩ := htr
            subst e1 e2 e3
            obtain ⟨fr', hit⟩ := h.fire hx t4 (by simp) (CtOk.none _)
            exact ⟨_, hit, by rw [hth], by rw [← hpk]; exact hysel⟩
          · obtain ⟨e1, e2, e3⟩ := hdl
            obtain ⟨t1, t2, t3, t4, t5⟩ := htr
            subst e1 e2 e3
            obtain ⟨fr', hit⟩ := h.fire hx t4 (by simp) (CtOk.none _)
            exact ⟨_, hit, by rw [hth], by rw [← hpk]; exact hysel⟩
          · obtain ⟨e1, e2, e3⟩ := hdl
            obtain ⟨t1, t2, t3, t4, t5⟩ := htr
            subst e1 e2 e3
            obtain ⟨fr', hit⟩ := h.fire hx t4 (by simp) (CtOk.none _)
            exact ⟨_, hit, by rw [hth], by rw [← hpk]; exact hysel⟩
        have keepc : y ∈ db'.rows t0 → Covers cb db' r' (.act fr0 ch (.markSelect ct sel t0 k s c q0)) := by
          intro hy'
          exact ⟨hct, .inr ⟨⟨d, hd, hdl⟩, y, hy', hyk, by rw [← hpk]; exact hysel⟩⟩
        have hE := h.eff
        generalize hrs : db.rows t0 = rs at hE hy
        generalize hrs' : db'.rows t0 = rs' at hE keepc
        cases hE with
        | none => exact .inl (keepc hy)
        | ins n => exact .inl (keepc (List.mem_append_left _ hy))
        | upd l1 l2 old new he =>
          rw [he] at hy
          simp only [List.mem_append, List.mem_cons] at hy keepc
          rcases hy with hy | rfl | hy
          · exact .inl (keepc (.inl hy))
          · rcases hfire y new rfl rfl with ⟨e1, e2⟩ | hh
            · left
              refine ⟨hct, .inr ⟨⟨d, hd, hdl⟩, new, ?_, e1, e2⟩⟩
              rw [hrs']; simp
            · exact .inr hh
          · exact .inl (keepc (.inr (.inr hy)))
        | del l1 l2 old he =>
          rw [he] at hy
          simp only [List.mem_append, List.mem_cons] at hy keepc
          rcases hy with hy | rfl | hy
          · exact .inl (keepc (.inl hy))
          · exact .inr (hdel y y rfl rfl)
          · exact .inl (keepc (.inr hy))
      · left
        exact ⟨hct, .inr ⟨⟨d, hd, hdl⟩, y, by rw [h.other _ ht]; exact hy, hyk, by rw [← hpk]; exact hysel⟩⟩
  · exact absurd hc (by simp [Covers])

/-- A row of the declaring model after the write either was there before with the same own columns or will be marked. -/
theorem own_step (hT : Tracks E cb) (h : WriteOk E cb fr t db db' x) {r' : Row} (hr : r' ∈ db'.rows cb.model.table) :
    (∃ it ∈ newActs E fr t x, Covers cb db' r' it) ∨
      ∃ r ∈ db.rows cb.model.table, r cb.model.pk = r' cb.model.pk ∧ ∀ c ∈ cb.ownCols, r c = r' c := by
  by_cases ht : cb.model.table = t
  · have hpkm : (cb.model.table, cb.model.pk) ∈ cb.pks := List.mem_cons_self ..
    have hs := hT.selfUpd
    have hi := hT.selfIns
    rw [ht] at hr hpkm hs hi ⊢
    have hE := h.eff
    generalize hrs : db.rows t = rs at hE ⊢
    generalize hrs' : db'.rows t = rs' at hE hr
    cases hE with
    | none => exact .inr ⟨r', hr, rfl, fun _ _ => rfl⟩
    | ins n =>
      rcases List.mem_append.1 hr with hr | hr
      · exact .inr ⟨r', hr, rfl, fun _ _ => rfl⟩
      · rw [List.mem_singleton] at hr
        subst hr
        obtain ⟨fr', hit⟩ := h.fire rfl hi (by simp) (CtOk.none _)
        exact .inl ⟨_, hit, rfl, rfl⟩
    | upd l1 l2 old new he =>
      rw [he]
      simp only [List.mem_append, List.mem_cons] at hr ⊢
      rcases hr with hr | rfl | hr
      · exact .inr ⟨r', .inl hr, rfl, fun _ _ => rfl⟩
      · by_cases hch : changedCols cb.ownCols old r' = true
        · obtain ⟨fr', hit⟩ := h.fire rfl hs (fun _ => hch) (CtOk.none _)
          exact .inl ⟨_, hit, rfl, rfl⟩
        · have hk := h.keep old r' rfl _ hpkm rfl
          exact .inr ⟨old, .inr (.inl rfl), hk.symm, changedCols_false.1 (by simpa using hch)⟩
      · exact .inr ⟨r', .inr (.inr hr), rfl, fun _ _ => rfl⟩
    | del l1 l2 old he =>
      rw [he]
      simp only [List.mem_append, List.mem_cons] at hr ⊢
      rcases hr with hr | hr
      · exact .inr ⟨r', .inl hr, rfl, fun _ _ => rfl⟩
      · exact .inr ⟨r', .inr (.inr hr), rfl, fun _ _ => rfl⟩
  · exact .inr ⟨r', by rw [← h.other _ ht]; exact hr, rfl, fun _ _ => rfl⟩

end

end Denorm
