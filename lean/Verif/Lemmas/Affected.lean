import Verif.Spec.Affected
import Verif.Lemmas.Declared
/-!
# Every row a change concerns is marked
-/
namespace Denorm

section
variable {E : Engine} {cb : Callback} {fr : Frame} {t : TableName} {db db' : Db} {x : Option (Event × Row × Row)}

theorem WriteOk.newMem (h : WriteOk E cb fr t db db' x) {o n : Row} (hx : x = some (.update, o, n)) :
    n ∈ db'.rows t ∧ o ∈ db.rows t := by
  subst hx
  have := h.eff
  generalize db'.rows t = rs' at this ⊢
  generalize db.rows t = rs at this ⊢
  cases this with
  | upd l1 l2 old new he => subst he; simp

/-- The write queues an action that marks every row it concerns. -/
theorem concerns_covers (hT : Tracks E cb) (h : WriteOk E cb fr t db db' x) {d : DepRead} (hd : d ∈ cb.deps) {ch : Change}
    (hch : ch ∈ effectChange t x) {r : Row} (hc : d.Concerns db' ch r) :
    ∃ it ∈ newActs E fr t x, Covers cb db' r it := by
  cases x with
  | none => simp [effectChange] at hch
  | some p =>
  obtain ⟨ev, o, n⟩ := p
  simp only [effectChange, List.mem_singleton] at hch
  subst hch
  have htr := hT.deps d hd
  have hth := hT.this d hd
  have hpk : (d.dep.other.table, d.dep.other.pk) ∈ cb.pks :=
    List.mem_cons_of_mem _ (List.mem_map.2 ⟨d, hd, rfl⟩)
  have link : ∀ tbl c k w, d.dep.m2mTable = some (tbl, c, k) → c ∈ w ∧ k ∈ w →
      On E tbl .update w none (.markValues d.dep.this.ct .new c true) →
      On E tbl .update w none (.markValues d.dep.this.ct .old c true) →
      On E tbl .insert [] none (.markValues d.dep.this.ct .new c true) →
      On E tbl .delete [] none (.markValues d.dep.this.ct .old c true) → t = tbl →
      (∃ l ∈ Change.versions ⟨t, ev, o, n⟩, Val.sqlEq (l c) (r d.dep.this.pk) = true) →
      (ev = .update → o c ≠ n c ∨ o k ≠ n k) → ∃ it ∈ newActs E fr t (some (ev, o, n)), Covers cb db' r it := by
    rintro tbl c k w hm hw t1 t2 t3 t4 rfl ⟨l, hl, hlc⟩ hup
    have hlc := (Val.sqlEq_iff.1 hlc).1
    rw [hth] at hlc
    cases ev with
    | insert =>
      simp only [Change.versions, List.mem_singleton] at hl
      subst hl
      obtain ⟨fr', hit⟩ := h.fire rfl t3 (by simp) (CtOk.none _)
      exact ⟨_, hit, by rw [hth], hlc⟩
    | delete =>
      simp only [Change.versions, List.mem_singleton] at hl
      subst hl
      obtain ⟨fr', hit⟩ := h.fire rfl t4 (by simp) (CtOk.none _)
      exact ⟨_, hit, by rw [hth], hlc⟩
    | update =>
      have hcc : changedCols w o n = true := by
        rcases hup rfl with h1 | h1
        · exact changedCols_iff.2 ⟨c, hw.1, h1⟩
        · exact changedCols_iff.2 ⟨k, hw.2, h1⟩
      simp only [Change.versions, List.mem_cons, List.not_mem_nil, or_false] at hl
      rcases hl with rfl | rfl
      · obtain ⟨fr', hit⟩ := h.fire rfl t2 (fun _ => hcc) (CtOk.none _)
        exact ⟨_, hit, by rw [hth], hlc⟩
      · obtain ⟨fr', hit⟩ := h.fire rfl t1 (fun _ => hcc) (CtOk.none _)
        exact ⟨_, hit, by rw [hth], hlc⟩
  have other : ∀ tbl c k, d.dep.m2mTable = some (tbl, c, k) → d.dep.links = some (tbl, c, k) →
      On E d.dep.other.table .update d.reads none (.markSelect d.dep.this.ct c tbl k .new d.dep.other.pk true) →
      t = d.dep.other.table →
      (∃ y ∈ Change.versions ⟨t, ev, o, n⟩, ∃ l ∈ db'.rows tbl, Val.sqlEq (l c) (r d.dep.this.pk) = true ∧
        Val.sqlEq (l k) (y d.dep.other.pk) = true) →
      (ev = .update → ∃ c ∈ d.reads, o c ≠ n c) → ∃ it ∈ newActs E fr t (some (ev, o, n)), Covers cb db' r it := by
    rintro tbl c k hm hlk t5 ht ⟨y, hy, l, hl, h1, h2⟩ hup
    have hne := hT.through d hd _ _ _ hm
    have hl0 : l ∈ db.rows tbl := by rw [← h.other tbl (by rw [ht]; exact hne)]; exact hl
    have h2' : Val.sqlEq (y d.dep.other.pk) (l k) = true := by
      rw [Val.sqlEq_iff] at h2 ⊢; exact ⟨h2.1.symm, fun h0 => h2.2 (h2.1.trans h0)⟩
    cases ev with
    | insert =>
      simp only [Change.versions, List.mem_singleton] at hy
      subst hy
      exact absurd h2' (h.insLink _ _ rfl d hd ht.symm _ _ _ hm l hl0)
    | delete =>
      simp only [Change.versions, List.mem_singleton] at hy
      subst hy
      exact absurd h2' (h.delLink _ _ rfl d hd ht.symm _ _ _ hm l hl0)
    | update =>
      have hk := h.keep o n rfl _ hpk ht.symm
      simp only at hk
      rw [← ht] at t5
      obtain ⟨fr', hit⟩ := h.fire rfl t5 (fun _ => changedCols_iff.2 (hup rfl)) (CtOk.none _)
      refine ⟨_, hit, by rw [hth], .inr ⟨⟨d, hd, hlk⟩, l, hl, ?_, ?_⟩⟩
      · simp only [Change.versions, List.mem_cons, List.not_mem_nil, or_false] at hy
        rcases hy with rfl | rfl
        · show Val.sqlEq (l k) (n d.dep.other.pk) = true
          rw [hk]; exact h2
        · exact h2
      · rw [← hth]; exact (Val.sqlEq_iff.1 h1).1
  rcases hf : d.dep.rel with f | f | (m | g) | (m | g)
  · simp only [DepTracks, hf] at htr
    obtain ⟨t1, t2, t3⟩ := htr
    simp only [DepRead.Concerns, Dep.otherTable, Dep.relatedTo, Dep.relCols, Dep.m2mTable, hf, List.nil_append, reduceCtorEq,
      false_and, exists_false, or_false] at hc
    obtain ⟨ht, ⟨y, hy, hyr⟩, hup⟩ := hc
    have hown : ∃ d' ∈ cb.deps, f.column ∈ d'.dep.ownKeys := ⟨d, hd, by simp [Dep.ownKeys, hf]⟩
    rw [← ht] at t1 t2 t3 hpk
    cases ev with
    | insert =>
      simp only [Change.versions, List.mem_singleton] at hy
      subst hy
      obtain ⟨fr', hit⟩ := h.fire rfl t2 (by simp) (CtOk.none _)
      exact ⟨_, hit, by rw [hth], .inl ⟨by rw [hth], by rw [hth], hown, hyr⟩⟩
    | delete =>
      simp only [Change.versions, List.mem_singleton] at hy
      subst hy
      obtain ⟨fr', hit⟩ := h.fire rfl t3 (by simp) (CtOk.none _)
      exact ⟨_, hit, by rw [hth], .inl ⟨by rw [hth], by rw [hth], hown, hyr⟩⟩
    | update =>
      have hk := h.keep o n rfl _ hpk rfl
      simp only at hk
      obtain ⟨fr', hit⟩ := h.fire rfl t1 (fun _ => changedCols_iff.2 (hup rfl)) (CtOk.none _)
      refine ⟨_, hit, by rw [hth], .inl ⟨by rw [hth], by rw [hth], hown, ?_⟩⟩
      simp only [Change.versions, List.mem_cons, List.not_mem_nil, or_false] at hy
      rcases hy with rfl | rfl
      · show Val.sqlEq (r f.column) (n d.dep.other.pk) = true
        rw [hk]; exact hyr
      · exact hyr
  · simp only [DepTracks, hf] at htr
    obtain ⟨t1, t2, t3, t4⟩ := htr
    simp only [DepRead.Concerns, Dep.otherTable, Dep.relatedTo, Dep.relCols, Dep.m2mTable, hf, reduceCtorEq,
      false_and, exists_false, or_false] at hc
    obtain ⟨ht, ⟨y, hy, hyr⟩, hup⟩ := hc
    have hlink : ∃ d' ∈ cb.deps, d'.dep.links = some (d.dep.other.table, f.column, d.dep.other.pk) :=
      ⟨d, hd, by simp [Dep.links, hf]⟩
    rw [← ht] at t1 t2 t3 t4 hpk hlink
    have hyr := (Val.sqlEq_iff.1 hyr).1
    rw [hth] at hyr
    cases ev with
    | insert =>
      simp only [Change.versions, List.mem_singleton] at hy
      subst hy
      obtain ⟨fr', hit⟩ := h.fire rfl t3 (by simp) (CtOk.none _)
      exact ⟨_, hit, by rw [hth], .inr ⟨hlink, y, h.insMem rfl, Val.sqlEq_iff.2 ⟨rfl, h.insOk _ _ rfl _ hpk rfl⟩, hyr⟩⟩
    | delete =>
      simp only [Change.versions, List.mem_singleton] at hy
      subst hy
      obtain ⟨fr', hit⟩ := h.fire rfl t4 (by simp) (CtOk.none _)
      exact ⟨_, hit, by rw [hth], hyr⟩
    | update =>
      have hk := h.keep o n rfl _ hpk rfl
      simp only at hk
      have hcc : changedCols (f.column :: d.reads) o n = true := changedCols_iff.2 (hup rfl)
      simp only [Change.versions, List.mem_cons, List.not_mem_nil, or_false] at hy
      rcases hy with rfl | rfl
      · obtain ⟨fr', hit⟩ := h.fire rfl t2 (fun _ => hcc) (CtOk.none _)
        exact ⟨_, hit, by rw [hth], hyr⟩
      · obtain ⟨fr', hit⟩ := h.fire rfl t1 (fun _ => hcc) (CtOk.none _)
        refine ⟨_, hit, by rw [hth], .inr ⟨hlink, y, (h.newMem rfl).1, Val.sqlEq_iff.2 ⟨rfl, ?_⟩, hyr⟩⟩
        rw [hk]; exact h.keys _ hpk o (h.newMem rfl).2
  · simp only [DepTracks, hf] at htr
    obtain ⟨t1, t2, t3, t4, t5⟩ := htr
    simp only [DepRead.Concerns, Dep.otherTable, Dep.relatedTo, Dep.relCols, hf, List.nil_append] at hc
    rcases hc with ⟨h1, h2, h3⟩ | ⟨tbl, c, k, h1, h2, h3, h4⟩
    · exact other m.through m.colName m.revName (by simp [Dep.m2mTable, hf]) (by simp [Dep.links, hf]) t5 h1 h2 h3
    · have h0 := h1
      simp only [Dep.m2mTable, hf, Option.some.injEq, Prod.mk.injEq] at h1
      obtain ⟨rfl, rfl, rfl⟩ := h1
      exact link _ _ _ _ h0 (by simp) t1 t2 t3 t4 h2 h3 h4
  · simp only [DepTracks, hf] at htr
    obtain ⟨t1, t2, t3, t4⟩ := htr
    simp only [DepRead.Concerns, Dep.otherTable, Dep.relatedTo, Dep.relCols, Dep.m2mTable, hf, reduceCtorEq,
      false_and, exists_false, or_false] at hc
    obtain ⟨ht, ⟨y, hy, hy1, hy2⟩, hup⟩ := hc
    rw [← ht] at t1 t2 t3 t4
    have hyr := (Val.sqlEq_iff.1 hy2).1
    rw [hth] at hyr
    cases ev with
    | insert =>
      simp only [Change.versions, List.mem_singleton] at hy
      subst hy
      obtain ⟨fr', hit⟩ := h.fire rfl t3 (by simp) (by intro p hp'; simp only [Option.some.injEq] at hp'; subst hp'; exact hy1)
      exact ⟨_, hit, by rw [hth], hyr⟩
    | delete =>
      simp only [Change.versions, List.mem_singleton] at hy
      subst hy
      obtain ⟨fr', hit⟩ := h.fire rfl t4 (by simp) (by intro p hp'; simp only [Option.some.injEq] at hp'; subst hp'; exact hy1)
      exact ⟨_, hit, by rw [hth], hyr⟩
    | update =>
      have hcc := changedCols_iff.2 (hup rfl)
      simp only [Change.versions, List.mem_cons, List.not_mem_nil, or_false] at hy
      rcases hy with rfl | rfl
      · obtain ⟨fr', hit⟩ := h.fire rfl t2 (fun _ => hcc)
          (by intro p hp'; simp only [Option.some.injEq] at hp'; subst hp'; exact .inl hy1)
        exact ⟨_, hit, by rw [hth], hyr⟩
      · obtain ⟨fr', hit⟩ := h.fire rfl t1 (fun _ => hcc)
          (by intro p hp'; simp only [Option.some.injEq] at hp'; subst hp'; exact .inr hy1)
        exact ⟨_, hit, by rw [hth], hyr⟩
  · simp only [DepTracks, hf] at htr
    obtain ⟨t1, t2, t3, t4, t5⟩ := htr
    simp only [DepRead.Concerns, Dep.otherTable, Dep.relatedTo, Dep.relCols, hf, List.nil_append] at hc
    rcases hc with ⟨h1, h2, h3⟩ | ⟨tbl, c, k, h1, h2, h3, h4⟩
    · exact other m.through m.revName m.colName (by simp [Dep.m2mTable, hf]) (by simp [Dep.links, hf]) t5 h1 h2 h3
    · have h0 := h1
      simp only [Dep.m2mTable, hf, Option.some.injEq, Prod.mk.injEq] at h1
      obtain ⟨rfl, rfl, rfl⟩ := h1
      exact link _ _ _ _ h0 (by simp) t1 t2 t3 t4 h2 h3 h4
  · simp [DepTracks, hf] at htr

/-- Covering depends on the row only through its own columns and key. -/
theorem Covers.congr {r r' : Row} {it : Item} (hpk : r cb.model.pk = r' cb.model.pk) (hk : ∀ c ∈ cb.ownCols, r c = r' c)
    (hc : Covers cb db r it) : Covers cb db r' it := by
  rcases it with _ | ⟨fr0, ch, a⟩
  · exact absurd hc (by simp [Covers])
  rcases a with ⟨ct, s, c⟩ | ⟨ct, sel, t0, k, s, c⟩ | u
  · simp only [Covers] at hc ⊢; rw [← hpk]; exact hc
  · simp only [Covers] at hc ⊢
    obtain ⟨hct, ⟨h1, h2, ⟨d, hd, hdk⟩, h4⟩ | ⟨h3, y, hy, hyk, hysel⟩⟩ := hc
    · refine ⟨hct, .inl ⟨h1, h2, ⟨d, hd, hdk⟩, ?_⟩⟩
      rw [← hk k]
      · exact h4
      · simp only [Callback.ownCols, List.cons_append, List.mem_cons, List.mem_append, List.mem_flatMap]
        exact .inr (.inr ⟨d, hd, hdk⟩)
    · exact ⟨hct, .inr ⟨h3, y, hy, hyk, by rw [← hpk]; exact hysel⟩⟩
  · exact absurd hc (by simp [Covers])

/-- The write of a row of the declaring model that changes one of its own columns queues a marker for it. -/
theorem own_covers (hT : Tracks E cb) (h : WriteOk E cb fr t db db' x) {ch : Change} (hch : ch ∈ effectChange t x)
    (ht : ch.table = cb.model.table) (hup : ch.event = .update → ∃ c ∈ cb.ownCols, ch.old c ≠ ch.new c) (hnd : ch.event ≠ .delete)
    {r : Row} (hr : r cb.model.pk = ch.new cb.model.pk) : ∃ it ∈ newActs E fr t x, Covers cb db' r it := by
  cases x with
  | none => simp [effectChange] at hch
  | some p =>
  obtain ⟨ev, o, n⟩ := p
  simp only [effectChange, List.mem_singleton] at hch
  subst hch
  have hs := hT.selfUpd
  have hi := hT.selfIns
  simp only at ht hup hnd hr
  rw [← ht] at hs hi
  cases ev with
  | insert =>
    obtain ⟨fr', hit⟩ := h.fire rfl hi (by simp) (CtOk.none _)
    exact ⟨_, hit, rfl, hr.symm⟩
  | update =>
    obtain ⟨fr', hit⟩ := h.fire rfl hs (fun _ => changedCols_iff.2 (hup rfl)) (CtOk.none _)
    exact ⟨_, hit, rfl, hr.symm⟩
  | delete => exact absurd rfl hnd
end

/-- Primary key values of rows. -/
def NotPk (cb : Callback) (v : Val) (_ : Db) (r : Row) : Prop := r cb.model.pk ≠ v

theorem trackedProp_notPk (cb : Callback) (v : Val) : TrackedProp cb (NotPk cb v) := by
  intro db db' r r' _ hpk _ h
  simpa only [NotPk, hpk] using h

theorem TrackInv.weaken {E : Engine} {cb : Callback} {rank : String → Nat} {s : Stmt} {C : Db → Row → Prop} {W : List Item}
    {db : Db} (h : TrackInv E cb rank s C W db) : TrackInv E cb rank s (fun _ _ => True) W db :=
  ⟨h.legal, h.keys, h.items, fun _ _ => .inr (.inr trivial)⟩

/-- A row write whose actions cover every row with key `v` starts the invariant "rows with key `v` are marked or covered". -/
theorem trackInv_begin {E : Engine} {cb : Callback} (hT : Tracks E cb) {rank : String → Nat} (hR : Ranked E rank) {s : Stmt}
    {v : Val} {Q : Change → Db → Prop}
    (hcov : ∀ {fr t db db' x ch}, WriteOk E cb fr t db db' x → ch ∈ effectChange t x → Q ch db' →
      ∀ r' ∈ db'.rows cb.model.table, r' cb.model.pk = v → ∃ it ∈ newActs E fr t x, Covers cb db' r' it)
    (fr : Frame) (t : TableName) :
    ∀ (ops : List RowOp) (W : List Item) (db : Db), TrackInv E cb rank s (fun _ _ => True) (.write fr t ops :: W) db →
      ∀ p ∈ opChanges E t ops db, Q p.1 p.2 →
      TrackInv E cb rank s (NotPk cb v) ((applyOps E t ops db).2.flatMap (E.fired fr) ++ W) (applyOps E t ops db).1
  | [], _, _, _, p, hp, _ => by simp [opChanges] at hp
  | op :: ops, W, db, h, p, hp, hq => by
    have hC := trackInv E cb hT rank hR s _ (trackedProp_notPk cb v)
    have hTrue := trackInv E cb hT rank hR s (fun _ _ => True) (fun _ _ _ _ _ _ _ _ => trivial)
    have h1 := hTrue.writeOp h
    have key : TrackInv E cb rank s (NotPk cb v)
        ((applyOps E t ops (applyOp E t op db).1).2.flatMap (E.fired fr) ++
          ((applyOp E t op db).2.flatMap (E.fired fr) ++ W)) (applyOps E t ops (applyOp E t op db).1).1 := by
      simp only [opChanges, List.mem_append, List.mem_map] at hp
      rcases hp with ⟨ch, hch, rfl⟩ | hp
      · apply hC.write
        refine ⟨h1.legal, h1.keys, h1.items, fun r' hr' => ?_⟩
        obtain ⟨x, hw, hx⟩ := writeOk_of hT.toGround h.legal h.keys (h.items _ (List.mem_cons_self ..))
        rw [hx] at hch ⊢
        by_cases hv : r' cb.model.pk = v
        · obtain ⟨it, hit, hc⟩ := hcov hw hch hq r' hr' hv
          exact .inr (.inl ⟨it, List.mem_cons_of_mem _ (List.mem_append_left _ hit), hc⟩)
        · exact .inr (.inr hv)
      · exact trackInv_begin hT hR hcov fr t ops _ _ h1 p hp hq
    refine hC.perm ?_ key
    simp only [applyOps, List.flatMap_append, List.append_assoc]
    rw [← List.append_assoc, ← List.append_assoc]
    exact List.Perm.append_right _ List.perm_append_comm

theorem trackInv_changes {E : Engine} {cb : Callback} (hT : Tracks E cb) {rank : String → Nat} (hR : Ranked E rank) {s : Stmt}
    {v : Val} {Q : Change → Db → Prop}
    (hcov : ∀ {fr t db db' x ch}, WriteOk E cb fr t db db' x → ch ∈ effectChange t x → Q ch db' →
      ∀ r' ∈ db'.rows cb.model.table, r' cb.model.pk = v → ∃ it ∈ newActs E fr t x, Covers cb db' r' it) :
    ∀ (n : Nat) (W : List Item) (db db' : Db), E.drain n W db = .ok db' → TrackInv E cb rank s (fun _ _ => True) W db →
      ∀ p ∈ E.changes n W db, Q p.1 p.2 → TrackInv E cb rank s (NotPk cb v) [] db'
  | _, [], _, _, _, _, p, hp, _ => by simp [Engine.changes] at hp
  | 0, _ :: _, _, _, hd, _, _, _, _ => by simp [Engine.drain] at hd
  | n + 1, it :: W, db, db', hd, hI, p, hp, hq => by
    have hC := trackInv E cb hT rank hR s _ (trackedProp_notPk cb v)
    have hTrue := trackInv E cb hT rank hR s (fun _ _ => True) (fun _ _ _ _ _ _ _ _ => trivial)
    simp only [Engine.drain] at hd
    simp only [Engine.changes, List.mem_append] at hp
    split at hd
    · rename_i new db1 hs
      rcases hp with hp | hp
      · cases it with
        | act _ _ _ => simp at hp
        | write fr t ops =>
          simp only [Engine.step, Except.ok.injEq, Prod.mk.injEq] at hs
          obtain ⟨rfl, rfl⟩ := hs
          exact hC.drain n _ _ _ hd (trackInv_begin hT hR hcov fr t ops W db hI p hp hq)
      · rw [hs] at hp
        exact trackInv_changes hT hR hcov n _ _ _ hd (hTrue.step hs hI) p hp hq
    · simp at hd

/-- After a statement, a row is marked if any of the row changes made by the statement or by the triggers it set off concerned
it. -/
theorem concerned_marked {E : Engine} {cb : Callback} (hT : Tracks E cb) (hN : NoReentry E) {fuel : Nat} {s : Stmt}
    {db db' : Db} (he : E.exec fuel s db = .ok db') (hL : LegalStmt E cb db s) (hK : KeysOk cb db) {d : DepRead}
    (hd : d ∈ cb.deps) {ch : Change} {db1 : Db} (hch : (ch, db1) ∈ E.changesOf fuel s db) {r : Row}
    (hc : d.Concerns db1 ch r) (huniq : ∀ r1 ∈ db1.rows cb.model.table, r1 cb.model.pk = r cb.model.pk → r1 = r) :
    ∀ r' ∈ db'.rows cb.model.table, r' cb.model.pk = r cb.model.pk → Marked cb.model db' r' := by
  obtain ⟨rank, hR⟩ := hN.ranked
  have := trackInv_changes (s := s) (v := r cb.model.pk)
    (Q := fun ch db1 => d.Concerns db1 ch r ∧
      ∀ r1 ∈ db1.rows cb.model.table, r1 cb.model.pk = r cb.model.pk → r1 = r) hT hR
    (by
      intro fr t db db' x ch hw hch hq r' hr' hv
      obtain ⟨it, hit, hcv⟩ := concerns_covers hT hw hd hch hq.1
      exact ⟨it, hit, hcv.congr hv.symm fun c hc => by rw [hq.2 r' hr' hv]⟩)
    fuel _ _ _ he ⟨hL, hK, itemOk_start E rank s db, fun _ _ => .inr (.inr trivial)⟩ _ hch ⟨hc, huniq⟩
  intro r' hr' hv
  rcases this.good r' hr' with h | ⟨it, h, _⟩ | h
  · exact h
  · simp at h
  · exact absurd hv h

/-- The same for changes of the declaring model's own rows. -/
theorem own_marked {E : Engine} {cb : Callback} (hT : Tracks E cb) (hN : NoReentry E) {fuel : Nat} {s : Stmt}
    {db db' : Db} (he : E.exec fuel s db = .ok db') (hL : LegalStmt E cb db s) (hK : KeysOk cb db) {ch : Change} {db1 : Db}
    (hch : (ch, db1) ∈ E.changesOf fuel s db) (ht : ch.table = cb.model.table) (hnd : ch.event ≠ .delete)
    (hup : ch.event = .update → ∃ c ∈ cb.ownCols, ch.old c ≠ ch.new c) :
    ∀ r' ∈ db'.rows cb.model.table, r' cb.model.pk = ch.new cb.model.pk → Marked cb.model db' r' := by
  obtain ⟨rank, hR⟩ := hN.ranked
  have := trackInv_changes (s := s) (v := ch.new cb.model.pk) (Q := fun ch' _ => ch' = ch) hT hR
    (by
      intro fr t db db' x ch' hw hch' hq r' hr' hv
      subst hq
      exact own_covers hT hw hch' ht hup hnd hv)
    fuel _ _ _ he ⟨hL, hK, itemOk_start E rank s db, fun _ _ => .inr (.inr trivial)⟩ _ hch rfl
  intro r' hr' hv
  rcases this.good r' hr' with h | ⟨it, h, _⟩ | h
  · exact h
  · simp at h
  · exact absurd hv h

end Denorm
