import Verif.Spec.Rekey
import Verif.Lemmas.Trace
import Verif.Lemmas.Cascade
import Verif.Lemmas.Declared
import Verif.Lemmas.TrackingInv
/-!
# Tracking while keys change
-/
namespace Denorm

/-- The callback looks at its own key and at the keys of related rows. -/
structure LooksAtKeys (cb : Callback) : Prop where
  own : cb.model.pk ∈ cb.ownCols
  deps : ∀ d ∈ cb.deps, (∀ g, d.dep.rel ≠ .forwardM2M (.generic g)) → d.dep.other.pk ∈ d.reads

/-- The write of one row, as seen by callback `cb`. -/
structure LooseWrite (E : Engine) (cb : Callback) (fr : Frame) (t : TableName) (db db' : Db)
    (x : Option (Event × Row × Row)) : Prop where
  eff : Effect (db.rows t) (db'.rows t) x
  other : ∀ t', t' ≠ t → db'.rows t' = db.rows t'
  dirty : db'.dirty = db.dirty
  insLink : ∀ o n, x = some (.insert, o, n) → ∀ d ∈ cb.deps, d.dep.other.table = t → Unlinked d.dep db n
  free : ∀ ev o n, x = some (ev, o, n) → NotBlocked E fr ⟨t, ev, o, n⟩
  keys : KeysOk cb db'
  apart : KeysApart cb db

theorem pairwise_unique {k : Col} {rs : List Row} (h : rs.Pairwise fun r r' => r k ≠ r' k) {l1 l2 : List Row} {o : Row}
    (he : rs = l1 ++ o :: l2) : ∀ y ∈ l1 ++ l2, y k ≠ o k := by
  subst he
  rw [List.pairwise_append] at h
  obtain ⟨_, h2, h3⟩ := h
  intro y hy
  rcases List.mem_append.1 hy with hy | hy
  · exact h3 y hy o (List.mem_cons_self ..)
  · exact fun h0 => (List.pairwise_cons.1 h2).1 y hy h0.symm

/-- A row that goes away, or gets another key, takes its key with it. -/
theorem effect_gone {k : Col} {rs rs' : List Row} {x : Option (Event × Row × Row)} (h : Effect rs rs' x)
    (hp : rs.Pairwise fun r r' => r k ≠ r' k) {ev : Event} {o n : Row} (hx : x = some (ev, o, n)) (he : ev ≠ .insert)
    (hn : ev = .update → n k ≠ o k) : ∀ y ∈ rs', y k ≠ o k := by
  subst hx
  generalize hg : some (ev, o, n) = x at h
  cases h with
  | none => cases hg
  | ins r => cases hg; exact absurd rfl he
  | upd l1 l2 old new hrs =>
    cases hg
    intro y hy
    simp only [List.mem_append, List.mem_cons] at hy
    rcases hy with hy | rfl | hy
    · exact pairwise_unique hp hrs y (List.mem_append_left _ hy)
    · exact hn rfl
    · exact pairwise_unique hp hrs y (List.mem_append_right _ hy)
  | del l1 l2 old hrs =>
    cases hg
    exact pairwise_unique hp hrs

section
variable {E : Engine} {cb : Callback} {fr : Frame} {t : TableName} {db db' : Db} {x : Option (Event × Row × Row)}

theorem LooseWrite.insMem (h : LooseWrite E cb fr t db db' x) {o n : Row} (hx : x = some (.insert, o, n)) : n ∈ db'.rows t := by
  subst hx
  generalize hr : db'.rows t = rs
  have := h.eff
  rw [hr] at this
  cases this
  simp

/-- Fires an action for the write. -/
theorem LooseWrite.fire (h : LooseWrite E cb fr t db db' x) {ev : Event} {o n : Row} (hx : x = some (ev, o, n)) {cols : List Col}
    {ctf : Option (Col × Nat)} {a : Action} (hon : On E t ev cols ctf a)
    (hc : ev = .update → changedCols cols o n = true) (hct : CtOk ctf ⟨t, ev, o, n⟩) :
    ∃ fr', Item.act fr' ⟨t, ev, o, n⟩ a ∈ newActs E fr t x := by
  obtain ⟨fr', hf⟩ := hon.fired (fr := fr) (ch := ⟨t, ev, o, n⟩) rfl rfl hc hct (h.free ev o n hx)
  subst hx
  exact ⟨fr', mem_newActs hf⟩

theorem sqlEq_flip {a b : Val} (h : Val.sqlEq a b = true) : Val.sqlEq b a = true := by
  rw [Val.sqlEq_iff] at h ⊢
  exact ⟨h.1.symm, fun h0 => h.2 (h.1.trans h0)⟩

theorem other_pk_mem {d : DepRead} (hd : d ∈ cb.deps) : (d.dep.other.table, d.dep.other.pk) ∈ cb.pks :=
  List.mem_cons_of_mem _ (List.mem_map.2 ⟨d, hd, rfl⟩)

/-- A change of the key, or of what is read. -/
theorem changed_reads {k : Col} {reads : List Col} (hk : k ∈ reads) {o n : Row} {p : Row → Bool} (hp : ∀ o n : Row, o k = n k → p o = p n)
    (h : p o ≠ p n ∨ ([reads.map o] : List (List Val)) ≠ [reads.map n]) : changedCols reads o n = true := by
  rcases h with h | h
  · exact changedCols_iff.2 ⟨k, hk, fun h0 => h (hp _ _ h0)⟩
  · exact map_ne h

theorem loose_forward (hT : Follows E cb) (hL : LooksAtKeys cb) (h : LooseWrite E cb fr t db db' x) {d : DepRead} (hd : d ∈ cb.deps) {f : Field}
    (hf : d.dep.rel = .forward f) (r : Row) :
    seen d.reads (relatedRows d.dep db' r) = seen d.reads (relatedRows d.dep db r) ∨
      (∃ it ∈ newActs E fr t x, Covers cb db' r it) ∨ d.dep.Dangles db' r := by
  have htr := hT.deps d hd
  have hth := hT.this d hd
  have hkr := hL.deps d hd (by simp [hf])
  simp only [DepTracks, hf] at htr
  obtain ⟨t1, t2, t3⟩ := htr
  simp only [relatedRows, hf, seen_filter]
  by_cases ht : d.dep.other.table = t
  · have hpk := h.apart _ (other_pk_mem hd)
    have hown : ∃ d' ∈ cb.deps, f.column ∈ d'.dep.ownKeys := ⟨d, hd, by simp [Dep.ownKeys, hf]⟩
    simp only [ht] at t1 t2 t3 hpk ⊢
    rcases filter_effect h.eff (fun o => Val.sqlEq (o d.dep.other.pk) (r f.column)) (fun o => [d.reads.map o])
      with he | ⟨n, hx, hp⟩ | ⟨o, hx, hp⟩ | ⟨o, n, hx, _, _, hor, hne⟩
    · exact .inl he
    · right; left
      obtain ⟨fr', hit⟩ := h.fire hx t2 (by simp) (CtOk.none _)
      exact ⟨_, hit, by rw [hth], .inl ⟨by rw [hth], by rw [hth], hown, sqlEq_flip hp⟩⟩
    · right; left
      obtain ⟨fr', hit⟩ := h.fire hx t3 (by simp) (CtOk.none _)
      exact ⟨_, hit, by rw [hth], .inl ⟨by rw [hth], by rw [hth], hown, sqlEq_flip hp⟩⟩
    · right
      by_cases hp : Val.sqlEq (n d.dep.other.pk) (r f.column) = true
      · left
        obtain ⟨fr', hit⟩ := h.fire hx t1 (fun _ => changed_reads (p := fun o => Val.sqlEq (o d.dep.other.pk) (r f.column)) hkr
          (fun o n h0 => by rw [h0]) hne) (CtOk.none _)
        exact ⟨_, hit, by rw [hth], .inl ⟨by rw [hth], by rw [hth], hown, sqlEq_flip hp⟩⟩
      · right
        have ho := Val.sqlEq_iff.1 (hor.resolve_right hp)
        simp only [Dep.Dangles, hf]
        rw [ht]
        refine ⟨fun h0 => ho.2 (ho.1.trans h0), ?_⟩
        rw [← ho.1]
        exact effect_gone h.eff hpk hx (by simp) fun _ h0 => hp (Val.sqlEq_iff.2 ⟨h0.trans ho.1, fun h1 => ho.2 (h0.symm.trans h1)⟩)
  · left; rw [h.other _ ht]

theorem loose_backward (hT : Follows E cb) (h : LooseWrite E cb fr t db db' x) {d : DepRead} (hd : d ∈ cb.deps) {f : Field}
    (hf : d.dep.rel = .backward f) (r : Row) :
    seen d.reads (relatedRows d.dep db' r) = seen d.reads (relatedRows d.dep db r) ∨
      ∃ it ∈ newActs E fr t x, Covers cb db' r it := by
  have htr := hT.deps d hd
  have hth := hT.this d hd
  simp only [DepTracks, hf] at htr
  obtain ⟨t1, t2, t3, t4⟩ := htr
  simp only [relatedRows, hf, seen_filter]
  by_cases ht : d.dep.other.table = t
  · have hlink : ∃ d' ∈ cb.deps, d'.dep.links = some (d.dep.other.table, f.column, d.dep.other.pk) :=
      ⟨d, hd, by simp [Dep.links, hf]⟩
    have hpk := h.keys _ (other_pk_mem hd)
    simp only [ht] at t1 t2 t3 t4 hlink hpk ⊢
    rcases filter_effect h.eff (fun o => Val.sqlEq (o f.column) (r d.dep.this.pk)) (fun o => [d.reads.map o])
      with he | ⟨n, hx, hp⟩ | ⟨o, hx, hp⟩ | ⟨o, n, hx, hom, hnm, hor, hne⟩
    · exact .inl he
    · right
      obtain ⟨fr', hit⟩ := h.fire hx t3 (by simp) (CtOk.none _)
      refine ⟨_, hit, by rw [hth], .inr ⟨hlink, n, h.insMem hx, Val.sqlEq_iff.2 ⟨rfl, hpk n (h.insMem hx)⟩, ?_⟩⟩
      rw [← hth]; exact (Val.sqlEq_iff.1 hp).1
    · right
      obtain ⟨fr', hit⟩ := h.fire hx t4 (by simp) (CtOk.none _)
      exact ⟨_, hit, by rw [hth], by rw [← hth]; exact (Val.sqlEq_iff.1 hp).1⟩
    · right
      have hch : changedCols (f.column :: d.reads) o n = true := by
        rcases hne with hne | hne
        · exact changedCols_iff.2 ⟨f.column, by simp, fun h0 => hne (by rw [h0])⟩
        · obtain ⟨c, hc, hcn⟩ := changedCols_iff.1 (map_ne hne)
          exact changedCols_iff.2 ⟨c, List.mem_cons_of_mem _ hc, hcn⟩
      rcases hor with hp | hp
      · obtain ⟨fr', hit⟩ := h.fire hx t2 (fun _ => hch) (CtOk.none _)
        exact ⟨_, hit, by rw [hth], by rw [← hth]; exact (Val.sqlEq_iff.1 hp).1⟩
      · obtain ⟨fr', hit⟩ := h.fire hx t1 (fun _ => hch) (CtOk.none _)
        refine ⟨_, hit, by rw [hth], .inr ⟨hlink, n, hnm, Val.sqlEq_iff.2 ⟨rfl, hpk n hnm⟩, ?_⟩⟩
        rw [← hth]; exact (Val.sqlEq_iff.1 hp).1
  · left; rw [h.other _ ht]

theorem loose_generic (hT : Follows E cb) (h : LooseWrite E cb fr t db db' x) {d : DepRead} (hd : d ∈ cb.deps)
    {g : GenericRel} (hf : d.dep.rel = .forwardM2M (.generic g)) (r : Row) :
    seen d.reads (relatedRows d.dep db' r) = seen d.reads (relatedRows d.dep db r) ∨
      ∃ it ∈ newActs E fr t x, Covers cb db' r it := by
  have htr := hT.deps d hd
  have hth := hT.this d hd
  simp only [DepTracks, hf] at htr
  obtain ⟨t1, t2, t3, t4⟩ := htr
  simp only [relatedRows, hf, seen_filter]
  by_cases ht : g.remoteTable = t
  · rw [ht] at t1 t2 t3 t4 ⊢
    have hct : ∀ o : Row, (Val.sqlEq (o (g.ctFieldName ++ "_id")) (.int d.dep.this.ct) &&
        Val.sqlEq (o g.objectIdField) (r d.dep.this.pk)) = true →
        hasCt (g.ctFieldName ++ "_id") d.dep.this.ct o = true ∧ o g.objectIdField = r cb.model.pk := by
      intro o ho
      rw [Bool.and_eq_true] at ho
      exact ⟨ho.1, by rw [← hth]; exact (Val.sqlEq_iff.1 ho.2).1⟩
    rcases filter_effect h.eff _ (fun o => [d.reads.map o])
      with he | ⟨n, hx, hp⟩ | ⟨o, hx, hp⟩ | ⟨o, n, hx, hom, hnm, hor, hne⟩
    · exact .inl he
    · right
      obtain ⟨h1, h2⟩ := hct _ hp
      obtain ⟨fr', hit⟩ := h.fire hx t3 (by simp) (by intro p hp'; simp only [Option.some.injEq] at hp'; subst hp'; exact h1)
      exact ⟨_, hit, by rw [hth], h2⟩
    · right
      obtain ⟨h1, h2⟩ := hct _ hp
      obtain ⟨fr', hit⟩ := h.fire hx t4 (by simp) (by intro p hp'; simp only [Option.some.injEq] at hp'; subst hp'; exact h1)
      exact ⟨_, hit, by rw [hth], h2⟩
    · right
      have hch : changedCols ((g.ctFieldName ++ "_id") :: g.objectIdField :: d.reads) o n = true := by
        rcases hne with hne | hne
        · apply Classical.byContradiction
          intro hnc
          have := changedCols_false.1 (by simpa using hnc)
          apply hne
          rw [this (g.ctFieldName ++ "_id") (by simp), this g.objectIdField (by simp)]
        · obtain ⟨c, hc, hcn⟩ := changedCols_iff.1 (map_ne hne)
          exact changedCols_iff.2 ⟨c, List.mem_cons_of_mem _ (List.mem_cons_of_mem _ hc), hcn⟩
      rcases hor with hp | hp
      · obtain ⟨h1, h2⟩ := hct _ hp
        obtain ⟨fr', hit⟩ := h.fire hx t2 (fun _ => hch)
          (by intro p hp'; simp only [Option.some.injEq] at hp'; subst hp'; exact .inl h1)
        exact ⟨_, hit, by rw [hth], h2⟩
      · obtain ⟨h1, h2⟩ := hct _ hp
        obtain ⟨fr', hit⟩ := h.fire hx t1 (fun _ => hch)
          (by intro p hp'; simp only [Option.some.injEq] at hp'; subst hp'; exact .inr h1)
        exact ⟨_, hit, by rw [hth], h2⟩
  · left; rw [h.other _ ht]

/-- Both directions of a many-to-many relation: a link to a row that is not there. -/
def LinkDangles (d : Dep) (tbl : TableName) (c k : Col) (db : Db) (r : Row) : Prop :=
  ∃ l ∈ db.rows tbl, Val.sqlEq (l c) (r d.this.pk) = true ∧ l k ≠ .null ∧ ∀ o ∈ db.rows d.other.table, o d.other.pk ≠ l k

theorem loose_m2m (hT : Follows E cb) (hL : LooksAtKeys cb) (h : LooseWrite E cb fr t db db' x) {d : DepRead} (hd : d ∈ cb.deps)
    {tbl : TableName} {c k : Col} (hm : d.dep.m2mTable = some (tbl, c, k)) (hl : d.dep.links = some (tbl, c, k))
    {w : List Col} (hw : c ∈ w ∧ k ∈ w)
    (t1 : On E tbl .update w none (.markValues d.dep.this.ct .new c true))
    (t2 : On E tbl .update w none (.markValues d.dep.this.ct .old c true))
    (t3 : On E tbl .insert [] none (.markValues d.dep.this.ct .new c true))
    (t4 : On E tbl .delete [] none (.markValues d.dep.this.ct .old c true))
    (t5 : On E d.dep.other.table .update d.reads none (.markSelect d.dep.this.ct c tbl k .new d.dep.other.pk true)) (r : Row) :
    (((db'.rows tbl).filter fun l => Val.sqlEq (l c) (r d.dep.this.pk)).flatMap fun l =>
      seen d.reads ((db'.rows d.dep.other.table).filter fun o => Val.sqlEq (o d.dep.other.pk) (l k))) =
    (((db.rows tbl).filter fun l => Val.sqlEq (l c) (r d.dep.this.pk)).flatMap fun l =>
      seen d.reads ((db.rows d.dep.other.table).filter fun o => Val.sqlEq (o d.dep.other.pk) (l k))) ∨
      (∃ it ∈ newActs E fr t x, Covers cb db' r it) ∨ LinkDangles d.dep tbl c k db' r := by
  have hth := hT.this d hd
  have hne := hT.through d hd _ _ _ hm
  have hkr := hL.deps d hd (fun g hg => by simp [Dep.m2mTable, hg] at hm)
  by_cases ht : tbl = t
  · subst ht
    rw [h.other d.dep.other.table (fun h0 => hne h0.symm)]
    rcases filter_effect h.eff (fun l => Val.sqlEq (l c) (r d.dep.this.pk)) (fun l => seen d.reads
        ((db.rows d.dep.other.table).filter fun o => Val.sqlEq (o d.dep.other.pk) (l k)))
      with he | ⟨n, hx, hp⟩ | ⟨o, hx, hp⟩ | ⟨o, n, hx, hom, hnm, hor, hne'⟩
    · exact .inl he
    · right; left
      obtain ⟨fr', hit⟩ := h.fire hx t3 (by simp) (CtOk.none _)
      exact ⟨_, hit, by rw [hth], by rw [← hth]; exact (Val.sqlEq_iff.1 hp).1⟩
    · right; left
      obtain ⟨fr', hit⟩ := h.fire hx t4 (by simp) (CtOk.none _)
      exact ⟨_, hit, by rw [hth], by rw [← hth]; exact (Val.sqlEq_iff.1 hp).1⟩
    · right; left
      have hch : changedCols w o n = true := by
        apply Classical.byContradiction
        intro hnc
        have := changedCols_false.1 (by simpa using hnc)
        have h1 := this c hw.1
        have h2 := this k hw.2
        rcases hne' with hne' | hne'
        · exact hne' (by rw [h1])
        · exact hne' (by rw [h2])
      rcases hor with hp | hp
      · obtain ⟨fr', hit⟩ := h.fire hx t2 (fun _ => hch) (CtOk.none _)
        exact ⟨_, hit, by rw [hth], by rw [← hth]; exact (Val.sqlEq_iff.1 hp).1⟩
      · obtain ⟨fr', hit⟩ := h.fire hx t1 (fun _ => hch) (CtOk.none _)
        exact ⟨_, hit, by rw [hth], by rw [← hth]; exact (Val.sqlEq_iff.1 hp).1⟩
  · have hot := h.other tbl ht
    rw [hot]
    by_cases hto : d.dep.other.table = t
    · have hpk := h.apart _ (other_pk_mem hd)
      simp only [hto] at t5 hpk ⊢
      by_cases hall : ∀ l ∈ (db.rows tbl).filter (fun l => Val.sqlEq (l c) (r d.dep.this.pk)),
          seen d.reads ((db'.rows t).filter fun o => Val.sqlEq (o d.dep.other.pk) (l k)) =
          seen d.reads ((db.rows t).filter fun o => Val.sqlEq (o d.dep.other.pk) (l k))
      · left
        simp only [List.flatMap]
        rw [List.map_congr_left fun l hl => hall l hl]
      · right
        have : ∃ l, l ∈ (db.rows tbl).filter (fun l => Val.sqlEq (l c) (r d.dep.this.pk)) ∧
            ¬ seen d.reads ((db'.rows t).filter fun o => Val.sqlEq (o d.dep.other.pk) (l k)) =
              seen d.reads ((db.rows t).filter fun o => Val.sqlEq (o d.dep.other.pk) (l k)) := by
          apply Classical.byContradiction
          intro hn
          apply hall
          intro l hl
          apply Classical.byContradiction
          intro hne
          exact hn ⟨l, hl, hne⟩
        obtain ⟨l, hlm, hneq⟩ := this
        rw [List.mem_filter] at hlm
        simp only [seen_filter] at hneq
        have gone : ∀ ev o n, x = some (ev, o, n) → ev ≠ .insert → Val.sqlEq (o d.dep.other.pk) (l k) = true →
            (ev = .update → ¬ Val.sqlEq (n d.dep.other.pk) (l k) = true) → LinkDangles d.dep tbl c k db' r := by
          intro ev o n hx hev hp hn
          have ho := Val.sqlEq_iff.1 hp
          refine ⟨l, by rw [hot]; exact hlm.1, hlm.2, fun h0 => ho.2 (ho.1.trans h0), ?_⟩
          rw [hto, ← ho.1]
          exact effect_gone h.eff hpk hx hev fun he h0 => hn he (Val.sqlEq_iff.2 ⟨h0.trans ho.1, fun h1 => ho.2 (h0.symm.trans h1)⟩)
        rcases filter_effect h.eff (fun o => Val.sqlEq (o d.dep.other.pk) (l k)) (fun o => [d.reads.map o])
          with he | ⟨n, hx, hp⟩ | ⟨o, hx, hp⟩ | ⟨o, n, hx, hom, hnm, hor, hne'⟩
        · exact absurd he hneq
        · exact absurd hp (h.insLink _ _ hx d hd hto _ _ _ hm l hlm.1)
        · exact .inr (gone _ _ _ hx (by simp) hp (by simp))
        · by_cases hp : Val.sqlEq (n d.dep.other.pk) (l k) = true
          · left
            obtain ⟨fr', hit⟩ := h.fire hx t5 (fun _ => changed_reads (p := fun o => Val.sqlEq (o d.dep.other.pk) (l k)) hkr
              (fun o n h0 => by rw [h0]) hne') (CtOk.none _)
            refine ⟨_, hit, by rw [hth], .inr ⟨⟨d, hd, hl⟩, l, ?_, sqlEq_flip hp, ?_⟩⟩
            · rw [hot]; exact hlm.1
            · rw [← hth]; exact (Val.sqlEq_iff.1 hlm.2).1
          · exact .inr (gone _ _ _ hx (by simp) (hor.resolve_right hp) fun _ => hp)
    · left; rw [h.other _ hto]

/-- What a callback sees of a row changes only if the row will be marked, or refers to nothing. -/
theorem loose_related (hT : Follows E cb) (hL : LooksAtKeys cb) (h : LooseWrite E cb fr t db db' x) {d : DepRead} (hd : d ∈ cb.deps) (r : Row) :
    seen d.reads (relatedRows d.dep db' r) = seen d.reads (relatedRows d.dep db r) ∨
      (∃ it ∈ newActs E fr t x, Covers cb db' r it) ∨ d.dep.Dangles db' r := by
  have htr := hT.deps d hd
  rcases hf : d.dep.rel with f | f | (m | g) | (m | g)
  · exact loose_forward hT hL h hd hf r
  · exact (loose_backward hT h hd hf r).imp id .inl
  · simp only [DepTracks, hf] at htr
    obtain ⟨t1, t2, t3, t4, t5⟩ := htr
    have := loose_m2m (w := [m.colName, m.revName]) hT hL h hd (tbl := m.through) (c := m.colName) (k := m.revName)
      (by simp [Dep.m2mTable, hf]) (by simp [Dep.links, hf]) (by simp) t1 t2 t3 t4 t5 r
    simpa only [relatedRows, hf, seen_flatMap, Dep.Dangles, LinkDangles] using this
  · exact (loose_generic hT h hd hf r).imp id .inl
  · simp only [DepTracks, hf] at htr
    obtain ⟨t1, t2, t3, t4, t5⟩ := htr
    have := loose_m2m (w := [m.colName, m.revName]) hT hL h hd (tbl := m.through) (c := m.revName) (k := m.colName)
      (by simp [Dep.m2mTable, hf]) (by simp [Dep.links, hf]) (by simp) t1 t2 t3 t4 t5 r
    simpa only [relatedRows, hf, seen_flatMap, Dep.Dangles, LinkDangles] using this
  · simp [DepTracks, hf] at htr

theorem linkDangles_step (hT : Follows E cb) (hL : LooksAtKeys cb) (h : LooseWrite E cb fr t db db' x) {d : DepRead} (hd : d ∈ cb.deps)
    {tbl : TableName} {c k : Col} (hm : d.dep.m2mTable = some (tbl, c, k)) (hl : d.dep.links = some (tbl, c, k))
    {w : List Col} (hw : c ∈ w ∧ k ∈ w)
    (t2 : On E tbl .update w none (.markValues d.dep.this.ct .old c true))
    (t4 : On E tbl .delete [] none (.markValues d.dep.this.ct .old c true))
    (t5 : On E d.dep.other.table .update d.reads none (.markSelect d.dep.this.ct c tbl k .new d.dep.other.pk true)) {r : Row}
    (hr : LinkDangles d.dep tbl c k db r) : LinkDangles d.dep tbl c k db' r ∨ ∃ it ∈ newActs E fr t x, Covers cb db' r it := by
  have hth := hT.this d hd
  have hne := hT.through d hd _ _ _ hm
  have hkr := hL.deps d hd (fun g hg => by simp [Dep.m2mTable, hg] at hm)
  obtain ⟨l, hlm, hlr, hln, hlo⟩ := hr
  by_cases ht : tbl = t
  · subst ht
    have ho := h.other d.dep.other.table (fun h0 => hne h0.symm)
    have stay : l ∈ db'.rows tbl → LinkDangles d.dep tbl c k db' r := fun hl' => ⟨l, hl', hlr, hln, by rw [ho]; exact hlo⟩
    have hE := h.eff
    generalize hrs : db.rows tbl = rs at hE hlm
    generalize hrs' : db'.rows tbl = rs' at hE stay
    cases hE with
    | none => exact .inl (stay hlm)
    | ins n => exact .inl (stay (List.mem_append_left _ hlm))
    | upd l1 l2 old new he =>
      rw [he] at hlm
      simp only [List.mem_append, List.mem_cons] at hlm stay
      rcases hlm with hlm | rfl | hlm
      · exact .inl (stay (.inl hlm))
      · by_cases hch : changedCols w l new = true
        · right
          obtain ⟨fr', hit⟩ := h.fire rfl t2 (fun _ => hch) (CtOk.none _)
          exact ⟨_, hit, by rw [hth], by rw [← hth]; exact (Val.sqlEq_iff.1 hlr).1⟩
        · have hsame := changedCols_false.1 (by simpa using hch)
          left
          refine ⟨new, by rw [hrs']; simp, ?_, ?_, ?_⟩
          · rw [← hsame c hw.1]; exact hlr
          · rw [← hsame k hw.2]; exact hln
          · rw [ho, ← hsame k hw.2]; exact hlo
      · exact .inl (stay (.inr (.inr hlm)))
    | del l1 l2 old he =>
      rw [he] at hlm
      simp only [List.mem_append, List.mem_cons] at hlm stay
      rcases hlm with hlm | rfl | hlm
      · exact .inl (stay (.inl hlm))
      · right
        obtain ⟨fr', hit⟩ := h.fire rfl t4 (by simp) (CtOk.none _)
        exact ⟨_, hit, by rw [hth], by rw [← hth]; exact (Val.sqlEq_iff.1 hlr).1⟩
      · exact .inl (stay (.inr hlm))
  · have hlm' : l ∈ db'.rows tbl := by rw [h.other tbl ht]; exact hlm
    by_cases hall : ∀ o ∈ db'.rows d.dep.other.table, o d.dep.other.pk ≠ l k
    · exact .inl ⟨l, hlm', hlr, hln, hall⟩
    · right
      have : ∃ n ∈ db'.rows d.dep.other.table, n d.dep.other.pk = l k := by
        apply Classical.byContradiction
        intro hn
        exact hall fun o ho h0 => hn ⟨o, ho, h0⟩
      obtain ⟨n, hn, hnk⟩ := this
      by_cases hto : d.dep.other.table = t
      · simp only [hto] at t5 hn hlo
        rcases effect_mem h.eff hn with hn' | hx | ⟨o, ho, hx⟩
        · exact absurd hnk (hlo n hn')
        · exact absurd (Val.sqlEq_iff.2 ⟨hnk, fun h0 => hln (hnk.symm.trans h0)⟩) (h.insLink _ _ hx d hd hto _ _ _ hm l hlm)
        · obtain ⟨fr', hit⟩ := h.fire hx t5
            (fun _ => changedCols_iff.2 ⟨d.dep.other.pk, hkr, fun h0 => hlo o ho (h0.trans hnk)⟩) (CtOk.none _)
          refine ⟨_, hit, by rw [hth], .inr ⟨⟨d, hd, hl⟩, l, hlm', Val.sqlEq_iff.2 ⟨hnk.symm, hln⟩, ?_⟩⟩
          rw [← hth]; exact (Val.sqlEq_iff.1 hlr).1
      · rw [h.other _ hto] at hn
        exact absurd hnk (hlo n hn)

/-- A row that refers to nothing goes on doing so, or will be marked. -/
theorem dangles_step (hT : Follows E cb) (hL : LooksAtKeys cb) (h : LooseWrite E cb fr t db db' x) {d : DepRead} (hd : d ∈ cb.deps) {r : Row}
    (hr : d.dep.Dangles db r) : d.dep.Dangles db' r ∨ ∃ it ∈ newActs E fr t x, Covers cb db' r it := by
  have htr := hT.deps d hd
  have hth := hT.this d hd
  rcases hf : d.dep.rel with f | f | (m | g) | (m | g)
  · have hkr := hL.deps d hd (by simp [hf])
    have hown : ∃ d' ∈ cb.deps, f.column ∈ d'.dep.ownKeys := ⟨d, hd, by simp [Dep.ownKeys, hf]⟩
    simp only [DepTracks, hf] at htr
    obtain ⟨t1, t2, t3⟩ := htr
    simp only [Dep.Dangles, hf] at hr ⊢
    obtain ⟨hnn, hlo⟩ := hr
    by_cases hall : ∀ o ∈ db'.rows d.dep.other.table, o d.dep.other.pk ≠ r f.column
    · exact .inl ⟨hnn, hall⟩
    · right
      have : ∃ n ∈ db'.rows d.dep.other.table, n d.dep.other.pk = r f.column := by
        apply Classical.byContradiction
        intro hn
        exact hall fun o ho h0 => hn ⟨o, ho, h0⟩
      obtain ⟨n, hn, hnk⟩ := this
      by_cases hto : d.dep.other.table = t
      · simp only [hto] at t1 t2 hn hlo
        rcases effect_mem h.eff hn with hn' | hx | ⟨o, ho, hx⟩
        · exact absurd hnk (hlo n hn')
        · obtain ⟨fr', hit⟩ := h.fire hx t2 (by simp) (CtOk.none _)
          exact ⟨_, hit, by rw [hth], .inl ⟨by rw [hth], by rw [hth], hown, Val.sqlEq_iff.2 ⟨hnk.symm, hnn⟩⟩⟩
        · obtain ⟨fr', hit⟩ := h.fire hx t1
            (fun _ => changedCols_iff.2 ⟨d.dep.other.pk, hkr, fun h0 => hlo o ho (h0.trans hnk)⟩) (CtOk.none _)
          exact ⟨_, hit, by rw [hth], .inl ⟨by rw [hth], by rw [hth], hown, Val.sqlEq_iff.2 ⟨hnk.symm, hnn⟩⟩⟩
      · rw [h.other _ hto] at hn
        exact absurd hnk (hlo n hn)
  · simp [Dep.Dangles, hf] at hr
  · simp only [DepTracks, hf] at htr
    obtain ⟨t1, t2, t3, t4, t5⟩ := htr
    have hr' : LinkDangles d.dep m.through m.colName m.revName db r := by simp only [Dep.Dangles, hf] at hr; exact hr
    have := linkDangles_step (w := [m.colName, m.revName]) hT hL h hd (by simp [Dep.m2mTable, hf]) (by simp [Dep.links, hf]) (by simp) t2 t4 t5 hr'
    simpa only [Dep.Dangles, hf, LinkDangles] using this
  · simp [Dep.Dangles, hf] at hr
  · simp only [DepTracks, hf] at htr
    obtain ⟨t1, t2, t3, t4, t5⟩ := htr
    have hr' : LinkDangles d.dep m.through m.revName m.colName db r := by simp only [Dep.Dangles, hf] at hr; exact hr
    have := linkDangles_step (w := [m.colName, m.revName]) hT hL h hd (by simp [Dep.m2mTable, hf]) (by simp [Dep.links, hf]) (by simp) t2 t4 t5 hr'
    simpa only [Dep.Dangles, hf, LinkDangles] using this
  · simp [Dep.Dangles, hf] at hr

theorem dangles_congr {d : Dep} {r r' : Row} (hpk : r d.this.pk = r' d.this.pk) (hk : ∀ c ∈ d.ownKeys, r c = r' c) {db : Db}
    (h : d.Dangles db r) : d.Dangles db r' := by
  rcases hf : d.rel with f | f | (m | g) | (m | g) <;> simp only [Dep.Dangles, hf] at h ⊢
  · rw [← hk f.column (by simp [Dep.ownKeys, hf])]; exact h
  · rw [← hpk]; exact h
  · rw [← hpk]; exact h

/-- A pending action that covers a row goes on covering it, or the write queues another one that does. -/
theorem loose_covers (hT : Follows E cb) (hL : LooksAtKeys cb) (h : LooseWrite E cb fr t db db' x) {r r' : Row} {it : Item}
    (hpk : r cb.model.pk = r' cb.model.pk) (hk : ∀ c ∈ cb.ownCols, r c = r' c) (hc : Covers cb db r it) :
    Covers cb db' r' it ∨ ∃ it' ∈ newActs E fr t x, Covers cb db' r' it' := by
  rcases it with _ | ⟨fr0, ch, a⟩
  · exact absurd hc (by simp [Covers])
  rcases a with ⟨ct, s, c, q0⟩ | ⟨ct, sel, t0, k, s, c, q0⟩ | u
  · left; simp only [Covers] at hc ⊢; rw [← hpk]; exact hc
  · simp only [Covers] at hc
    obtain ⟨hct, ⟨h1, h2, ⟨d, hd, hdk⟩, h4⟩ | ⟨⟨d, hd, hdl⟩, y, hy, hyk, hysel⟩⟩ := hc
    · left
      refine ⟨hct, .inl ⟨h1, h2, ⟨d, hd, hdk⟩, ?_⟩⟩
      rw [← hk k]
      · exact h4
      · simp only [Callback.ownCols, List.cons_append, List.mem_cons, List.mem_append, List.mem_flatMap]
        exact .inr (.inr ⟨d, hd, hdk⟩)
    · have hth := hT.this d hd
      have htr := hT.deps d hd
      -- what watches the connecting rows
      have hw : ∃ w q, k ∈ w ∧ sel ∈ w ∧ On E t0 .update w none (.markValues d.dep.this.ct .old sel q) ∧
          On E t0 .delete [] none (.markValues d.dep.this.ct .old sel q) := by
        rcases hf : d.dep.rel with f | f | (m | g) | (m | g) <;> simp only [DepTracks, Dep.links, hf, Option.some.injEq, Prod.mk.injEq, reduceCtorEq] at htr hdl
        · obtain ⟨e1, e2, e3⟩ := hdl
          obtain ⟨t1, t2, t3, t4⟩ := htr
          subst e1 e2 e3
          exact ⟨_, _, List.mem_cons_of_mem _ (hL.deps d hd (by simp [hf])), List.mem_cons_self .., t2, t4⟩
        · obtain ⟨e1, e2, e3⟩ := hdl
          obtain ⟨t1, t2, t3, t4, t5⟩ := htr
          subst e1 e2 e3
          exact ⟨_, _, by simp, by simp, t2, t4⟩
        · obtain ⟨e1, e2, e3⟩ := hdl
          obtain ⟨t1, t2, t3, t4, t5⟩ := htr
          subst e1 e2 e3
          exact ⟨_, _, by simp, by simp, t2, t4⟩
      obtain ⟨w, q, hwk, hws, o2, o4⟩ := hw
      by_cases ht : t0 = t
      · subst ht
        have keepc : y ∈ db'.rows t0 → Covers cb db' r' (.act fr0 ch (.markSelect ct sel t0 k s c q0)) := by
          intro hy'
          exact ⟨hct, .inr ⟨⟨d, hd, hdl⟩, y, hy', hyk, by rw [← hpk]; exact hysel⟩⟩
        have hE := h.eff
        generalize hrs : db.rows t0 = rs at hE hy
        generalize hrs' : db'.rows t0 = rs' at hE keepc
        cases hE with
        | none => exact .inl (keepc hy)
        | ins n => exact .inl (keepc (List.mem_append_left _ hy))
        | upd l1 l2 old new he =>
          rw [he] at hy
          simp only [List.mem_append, List.mem_cons] at hy keepc
          rcases hy with hy | rfl | hy
          · exact .inl (keepc (.inl hy))
          · by_cases hch : changedCols w y new = true
            · right
              obtain ⟨fr', hit⟩ := h.fire rfl o2 (fun _ => hch) (CtOk.none _)
              exact ⟨_, hit, by rw [hth], by rw [← hpk]; exact hysel⟩
            · have hsame := changedCols_false.1 (by simpa using hch)
              left
              refine ⟨hct, .inr ⟨⟨d, hd, hdl⟩, new, by rw [hrs']; simp, ?_, ?_⟩⟩
              · rw [← hsame k hwk]; exact hyk
              · rw [← hsame sel hws, ← hpk]; exact hysel
          · exact .inl (keepc (.inr (.inr hy)))
        | del l1 l2 old he =>
          rw [he] at hy
          simp only [List.mem_append, List.mem_cons] at hy keepc
          rcases hy with hy | rfl | hy
          · exact .inl (keepc (.inl hy))
          · right
            obtain ⟨fr', hit⟩ := h.fire rfl o4 (by simp) (CtOk.none _)
            exact ⟨_, hit, by rw [hth], by rw [← hpk]; exact hysel⟩
          · exact .inl (keepc (.inr hy))
      · left
        exact ⟨hct, .inr ⟨⟨d, hd, hdl⟩, y, by rw [h.other _ ht]; exact hy, hyk, by rw [← hpk]; exact hysel⟩⟩
  · exact absurd hc (by simp [Covers])

/-- A row of the declaring model after the write either was there before with the same key and own columns or will be marked. -/
theorem loose_own (hT : Tracks E cb) (hL : LooksAtKeys cb) (h : LooseWrite E cb fr t db db' x) {r' : Row}
    (hr : r' ∈ db'.rows cb.model.table) :
    (∃ it ∈ newActs E fr t x, Covers cb db' r' it) ∨
      ∃ r ∈ db.rows cb.model.table, r cb.model.pk = r' cb.model.pk ∧ ∀ c ∈ cb.ownCols, r c = r' c := by
  by_cases ht : cb.model.table = t
  · have hs := hT.selfUpd
    have hi := hT.selfIns
    rw [ht] at hr hs hi ⊢
    rcases effect_mem h.eff hr with hr' | hx | ⟨o, ho, hx⟩
    · exact .inr ⟨r', hr', rfl, fun _ _ => rfl⟩
    · obtain ⟨fr', hit⟩ := h.fire hx hi (by simp) (CtOk.none _)
      exact .inl ⟨_, hit, rfl, rfl⟩
    · by_cases hch : changedCols cb.ownCols o r' = true
      · obtain ⟨fr', hit⟩ := h.fire hx hs (fun _ => hch) (CtOk.none _)
        exact .inl ⟨_, hit, rfl, rfl⟩
      · have hsame := changedCols_false.1 (by simpa using hch)
        exact .inr ⟨o, ho, hsame _ hL.own, hsame⟩
  · exact .inr ⟨r', by rw [← h.other _ ht]; exact hr, rfl, fun _ _ => rfl⟩

end

/-! ## The invariant -/

/-- Every row is marked, or will be, or has the property, or refers to something that is not there. -/
structure LooseInv (E : Engine) (cb : Callback) (rank : String → Nat) (s : Stmt) (C : Db → Row → Prop) (W : List Item)
    (db : Db) : Prop where
  keys : KeysOk cb db
  apart : KeysApart cb db
  items : ∀ it ∈ W, ItemOk E rank s it
  good : ∀ r ∈ db.rows cb.model.table, Marked cb.model db r ∨ (∃ it ∈ W, Covers cb db r it) ∨ C db r ∨ ∃ d ∈ cb.deps, d.dep.Dangles db r

section
variable {E : Engine} {cb : Callback} {rank : String → Nat} {s : Stmt} {C : Db → Row → Prop}

theorem dangles_rows {d : Dep} {db db' : Db} (hr : db'.rows = db.rows) {r : Row} (h : d.Dangles db r) : d.Dangles db' r := by
  unfold Dep.Dangles at h ⊢
  rw [hr]
  exact h

/-- One row write. -/
theorem looseInv_writeOp (hT : Tracks E cb) (hL : LooksAtKeys cb) (hC : TrackedProp cb C) {fr : Frame} {t : TableName} {op : RowOp}
    {ops : List RowOp} {W : List Item} {db : Db}
    (hQ : ∀ ch ∈ (applyOp E t op db).2, KeyedChange cb ch (applyOp E t op db).1)
    (h : LooseInv E cb rank s C (.write fr t (op :: ops) :: W) db) :
    LooseInv E cb rank s C (.write fr t ops :: ((applyOp E t op db).2.flatMap (E.fired fr) ++ W)) (applyOp E t op db).1 := by
  have hit := h.items _ (List.mem_cons_self ..)
  obtain ⟨x, heff, hch, hupd, hins, hdel⟩ := applyOp_effect E t op db
  have hf := write_facts hit hupd hins hdel
  have hother : ∀ t', t' ≠ t → (applyOp E t op db).1.rows t' = db.rows t' := fun t' ht' => applyOp_rows_other E op db ht'
  have hkeys : KeysOk cb (applyOp E t op db).1 ∧ KeysApart cb (applyOp E t op db).1 := by
    cases hx : x with
    | some p =>
      have := hQ ⟨t, p.1, p.2.1, p.2.2⟩ (by rw [hch, hx]; simp [effectChange])
      exact ⟨this.1, this.2.1⟩
    | none =>
      rw [hx] at heff
      have hsame : ∀ t', (applyOp E t op db).1.rows t' = db.rows t' := by
        intro t'
        by_cases ht' : t' = t
        · subst ht'
          generalize (applyOp E t' op db).1.rows t' = rs' at heff
          cases heff; rfl
        · exact hother t' ht'
      refine ⟨fun p hp r hr => h.keys p hp r (by rw [← hsame]; exact hr), fun p hp => ?_⟩
      rw [hsame]; exact h.apart p hp
  have hw : LooseWrite E cb fr t db (applyOp E t op db).1 x := by
    refine ⟨heff, hother, applyOp_dirty E t op db, ?_, notBlocked_of hf, hkeys.1, h.apart⟩
    intro o n hx d hd hdt tbl c k hm l hl
    have := hQ ⟨t, .insert, o, n⟩ (by rw [hch, hx]; simp [effectChange])
    have hne : tbl ≠ t := hdt ▸ hT.through d hd _ _ _ hm
    exact this.2.2 rfl d hd hdt tbl c k hm l (by rw [hother tbl hne]; exact hl)
  have hacts : (applyOp E t op db).2.flatMap (E.fired fr) = newActs E fr t x := by rw [hch]; rfl
  refine ⟨hkeys.1, hkeys.2, ?_, ?_⟩
  · intro it hi
    rcases List.mem_cons.1 hi with rfl | hi
    · rcases hit with ⟨h1, h2, h3⟩ | ⟨col, hm, hops, hr⟩
      · exact .inl ⟨h1, h2, fun o ho => h3 o (List.mem_cons_of_mem _ ho)⟩
      · exact .inr ⟨col, hm, fun o ho => hops o (List.mem_cons_of_mem _ ho), hr⟩
    · rcases List.mem_append.1 hi with hi | hi
      · exact itemOk_fired hit it hi
      · exact h.items it (List.mem_cons_of_mem _ hi)
  · intro r' hr'
    rw [hacts]
    have new : (∃ it ∈ newActs E fr t x, Covers cb (applyOp E t op db).1 r' it) →
        ∃ it ∈ Item.write fr t ops :: (newActs E fr t x ++ W), Covers cb (applyOp E t op db).1 r' it := by
      rintro ⟨it, hi, hc⟩
      exact ⟨it, List.mem_cons_of_mem _ (List.mem_append_left _ hi), hc⟩
    rcases loose_own hT hL hw hr' with h1 | ⟨r, hr, hpk, hown⟩
    · exact .inr (.inl (new h1))
    · have ownk : ∀ d ∈ cb.deps, ∀ c ∈ d.dep.ownKeys, r c = r' c := by
        intro d hd c hc
        apply hown
        simp only [Callback.ownCols, List.cons_append, List.mem_cons, List.mem_append, List.mem_flatMap]
        exact .inr (.inr ⟨d, hd, hc⟩)
      rcases h.good r hr with h2 | ⟨it, h2, h3⟩ | h4 | ⟨d, hd, h5⟩
      · left
        unfold Marked at h2 ⊢
        rw [hw.dirty, ← hpk]; exact h2
      · rcases loose_covers hT hL hw hpk hown h3 with h5 | h5
        · rcases List.mem_cons.1 h2 with rfl | h2
          · exact absurd h5 (by simp [Covers])
          · exact .inr (.inl ⟨it, List.mem_cons_of_mem _ (List.mem_append_right _ h2), h5⟩)
        · exact .inr (.inl (new h5))
      · by_cases hall : ∀ d ∈ cb.deps, seen d.reads (relatedRows d.dep (applyOp E t op db).1 r') = seen d.reads (relatedRows d.dep db r')
        · refine .inr (.inr (.inl (hC _ _ _ _ hown hpk (fun d hd => ?_) h4)))
          rw [hall d hd, related_congr (hT.toFollows.notBackGeneric hd) (by rw [hT.this d hd]; exact hpk) (ownk d hd) db]
        · have : ∃ d, d ∈ cb.deps ∧ ¬ seen d.reads (relatedRows d.dep (applyOp E t op db).1 r') = seen d.reads (relatedRows d.dep db r') := by
            apply Classical.byContradiction
            intro hn
            apply hall
            intro d hd
            apply Classical.byContradiction
            exact fun hne => hn ⟨d, hd, hne⟩
          obtain ⟨d, hd, hne⟩ := this
          rcases loose_related hT hL hw hd r' with h5 | h5 | h5
          · exact absurd h5 hne
          · exact .inr (.inl (new h5))
          · exact .inr (.inr (.inr ⟨d, hd, h5⟩))
      · rcases dangles_step hT hL hw hd (dangles_congr (by rw [hT.this d hd]; exact hpk) (ownk d hd) h5) with h6 | h6
        · exact .inr (.inr (.inr ⟨d, hd, h6⟩))
        · exact .inr (.inl (new h6))

theorem looseInv_perm {W W' : List Item} {db : Db} (hp : W.Perm W') (h : LooseInv E cb rank s C W db) : LooseInv E cb rank s C W' db :=
  ⟨h.keys, h.apart, fun it hit => h.items it (hp.mem_iff.2 hit), fun r hr => by
    rcases h.good r hr with h1 | ⟨it, h2, h3⟩ | h4
    · exact .inl h1
    · exact .inr (.inl ⟨it, hp.mem_iff.1 h2, h3⟩)
    · exact .inr (.inr h4)⟩

theorem looseInv_writeNil {fr : Frame} {t : TableName} {W : List Item} {db : Db} (h : LooseInv E cb rank s C (.write fr t [] :: W) db) :
    LooseInv E cb rank s C W db := by
  refine ⟨h.keys, h.apart, fun it hit => h.items it (List.mem_cons_of_mem _ hit), fun r hr => ?_⟩
  rcases h.good r hr with h1 | ⟨it, h2, h3⟩ | h4
  · exact .inl h1
  · rcases List.mem_cons.1 h2 with rfl | h2
    · exact absurd h3 (by simp [Covers])
    · exact .inr (.inl ⟨it, h2, h3⟩)
  · exact .inr (.inr h4)

theorem looseInv_marks (hC : TrackedProp cb C) {it0 : Item} {ms : List Mark} {W : List Item} {db : Db}
    (hm : ∀ r ∈ db.rows cb.model.table, Covers cb db r it0 → (⟨cb.model.ct, r cb.model.pk⟩ : Mark) ∈ ms)
    (h : LooseInv E cb rank s C (it0 :: W) db) : LooseInv E cb rank s C W (db.addMarks ms) := by
  refine ⟨h.keys, h.apart, fun it hit => h.items it (List.mem_cons_of_mem _ hit), fun r hr => ?_⟩
  have hr' : r ∈ db.rows cb.model.table := hr
  rcases h.good r hr' with h1 | ⟨it, h2, h3⟩ | h4 | ⟨d, hd, h5⟩
  · left; unfold Marked at h1 ⊢; simp only [Db.addMarks_dirty, List.mem_append]; exact .inl h1
  · rcases List.mem_cons.1 h2 with rfl | h2
    · left; unfold Marked; simp only [Db.addMarks_dirty, List.mem_append]; exact .inr (hm r hr' h3)
    · exact .inr (.inl ⟨it, h2, (covers_rows rfl).2 h3⟩)
  · exact .inr (.inr (.inl (hC _ _ _ _ (fun _ _ => rfl) rfl (fun d _ => by rw [related_rows (Db.addMarks_rows ..)]) h4)))
  · exact .inr (.inr (.inr ⟨d, hd, dangles_rows rfl h5⟩))

theorem looseInv_update (hR : Ranked E rank) {fr : Frame} {ch : Change} {u : UpdAction} {W : List Item} {db : Db}
    (h : LooseInv E cb rank s C (.act fr ch (.update u) :: W) db) :
    LooseInv E cb rank s C (writes E.backend fr u.table (u.ops ch db) ++ W) db := by
  have hit := h.items _ (List.mem_cons_self ..)
  refine ⟨h.keys, h.apart, ?_, fun r hr => ?_⟩
  · intro it hi
    rcases List.mem_append.1 hi with hi | hi
    · exact itemOk_update hR hit it hi
    · exact h.items it (List.mem_cons_of_mem _ hi)
  · rcases h.good r hr with h1 | ⟨it, h2, h3⟩ | h4
    · exact .inl h1
    · rcases List.mem_cons.1 h2 with rfl | h2
      · exact absurd h3 (by simp [Covers])
      · exact .inr (.inl ⟨it, List.mem_append_right _ h2, h3⟩)
    · exact .inr (.inr h4)

theorem covers_values {fr : Frame} {ch : Change} {ct : Nat} {sd : Side} {c : Col} {q : Bool} {db : Db} {r : Row}
    (h : Covers cb db r (.act fr ch (.markValues ct sd c q))) : (⟨cb.model.ct, r cb.model.pk⟩ : Mark) ∈ [(⟨ct, ch.side sd c⟩ : Mark)] := by
  obtain ⟨e1, e2⟩ := h
  simp [e1, e2]

theorem covers_select {fr : Frame} {ch : Change} {ct : Nat} {sel : Col} {t : TableName} {k : Col} {sd : Side} {c : Col} {q : Bool} {db : Db}
    {r : Row} (hr : r ∈ db.rows cb.model.table) (h : Covers cb db r (.act fr ch (.markSelect ct sel t k sd c q))) :
    (⟨cb.model.ct, r cb.model.pk⟩ : Mark) ∈ selectMarks ct sel (db.rows t) k (ch.side sd c) := by
  obtain ⟨e1, ⟨e2, e3, _, e4⟩ | ⟨_, y, hy, hyk, hys⟩⟩ := h
  · exact mem_selectMarks.2 ⟨r, e2 ▸ hr, e4, by rw [e1, e3]⟩
  · exact mem_selectMarks.2 ⟨y, hy, hyk, by rw [e1, hys]⟩

theorem looseInv (hT : Tracks E cb) (hL : LooksAtKeys cb) (hR : Ranked E rank) (hC : TrackedProp cb C) :
    StepInvQ E (KeyedChange cb) (LooseInv E cb rank s C) where
  perm := looseInv_perm
  writeNil := looseInv_writeNil
  writeOp := looseInv_writeOp hT hL hC
  markValues := looseInv_marks hC fun _ _ => covers_values
  markSelect := looseInv_marks hC fun _ hr => covers_select hr
  update := fun _ => looseInv_update hR

/-- One statement. -/
theorem loose_exec (hT : Tracks E cb) (hL : LooksAtKeys cb) (hN : NoReentry E) (hC : TrackedProp cb C) {fuel : Nat} {db db' : Db}
    (he : E.exec fuel s db = .ok db') (hQ : ∀ p ∈ E.changesOf fuel s db, KeyedChange cb p.1 p.2) (hK : KeysOk cb db) (hA : KeysApart cb db)
    (hg : ∀ r ∈ db.rows cb.model.table, Marked cb.model db r ∨ C db r ∨ ∃ d ∈ cb.deps, d.dep.Dangles db r) :
    KeysOk cb db' ∧ KeysApart cb db' ∧
      ∀ r ∈ db'.rows cb.model.table, Marked cb.model db' r ∨ C db' r ∨ ∃ d ∈ cb.deps, d.dep.Dangles db' r := by
  obtain ⟨rank, hR⟩ := hN.ranked
  have := (looseInv (s := s) hT hL hR hC).trace (Engine.trace_of_drain _ _ _ _ he) hQ
    ⟨hK, hA, itemOk_start E rank s db, fun r hr => (hg r hr).imp id .inr⟩
  refine ⟨this.keys, this.apart, fun r hr => ?_⟩
  rcases this.good r hr with h1 | ⟨it, h2, _⟩ | h4
  · exact .inl h1
  · simp at h2
  · exact .inr h4

theorem loose_run (hT : Tracks E cb) (hL : LooksAtKeys cb) (hN : NoReentry E) (hC : TrackedProp cb C) {fuel : Nat} :
    ∀ (ss : List Stmt) (db : Db), KeyedRun E cb fuel ss db → KeysOk cb db → KeysApart cb db →
    (∀ r ∈ db.rows cb.model.table, Marked cb.model db r ∨ C db r ∨ ∃ d ∈ cb.deps, d.dep.Dangles db r) →
    KeysOk cb (E.run fuel ss db) ∧ KeysApart cb (E.run fuel ss db) ∧ ∀ r ∈ (E.run fuel ss db).rows cb.model.table,
      Marked cb.model (E.run fuel ss db) r ∨ C (E.run fuel ss db) r ∨ ∃ d ∈ cb.deps, d.dep.Dangles (E.run fuel ss db) r
  | [], db, _, hK, hA, hg => ⟨hK, hA, hg⟩
  | s :: ss, db, hq, hK, hA, hg => by
    obtain ⟨hq1, hq2⟩ := hq
    simp only [Engine.run]
    cases he : E.exec fuel s db with
    | ok db' =>
      rw [he] at hq2
      obtain ⟨h1, h2, h3⟩ := loose_exec hT hL hN hC he hq1 hK hA hg
      exact loose_run hT hL hN hC ss db' hq2 h1 h2 h3
    | error e =>
      rw [he] at hq2
      exact loose_run hT hL hN hC ss db hq2 hK hA hg

end

/-! ## Foreign keys that delete and clear rows -/

section
variable {E : Engine} {cb : Callback} {rank : String → Nat} {C : Db → Row → Prop}

/-- Deleting rows and updating columns that are no keys keeps keys in order. -/
theorem keyed_removal {t : TableName} {op : RowOp} {db : Db} (hK : KeysOk cb db) (hA : KeysApart cb db)
    (hop : ∀ r, op ≠ .ins r) (hu : ∀ i σ, op = .upd i σ → ∀ p ∈ cb.pks, p.1 = t → ∀ x r, σ x r p.2 = r p.2) :
    ∀ ch ∈ (applyOp E t op db).2, KeyedChange cb ch (applyOp E t op db).1 := by
  obtain ⟨x, heff, hch, hupd, hins, _⟩ := applyOp_effect E t op db
  intro ch hm
  have hother : ∀ t', t' ≠ t → (applyOp E t op db).1.rows t' = db.rows t' := fun t' ht' => applyOp_rows_other E op db ht'
  have hkey : ∀ p ∈ cb.pks, p.1 = t → (∀ r ∈ (applyOp E t op db).1.rows p.1, r p.2 ≠ .null) ∧
      ((applyOp E t op db).1.rows p.1).Pairwise fun r r' => r p.2 ≠ r' p.2 := by
    intro p hp ht
    have h1 := hK p hp
    have h2 := hA p hp
    rw [ht] at h1 h2 ⊢
    generalize db.rows t = rs at heff h1 h2
    generalize (applyOp E t op db).1.rows t = rs' at heff
    cases heff with
    | none => exact ⟨h1, h2⟩
    | ins r => exact absurd (hins _ _ rfl) (hop _)
    | upd l1 l2 old new he =>
      obtain ⟨i, σ, e, hn⟩ := hupd _ _ rfl
      have hk : new p.2 = old p.2 := hn ▸ hu i σ e p hp ht _ _
      subst he
      constructor
      · intro r hr
        simp only [List.mem_append, List.mem_cons] at hr h1
        rcases hr with hr | rfl | hr
        · exact h1 r (.inl hr)
        · rw [hk]; exact h1 old (.inr (.inl rfl))
        · exact h1 r (.inr (.inr hr))
      · have hp : ∀ l : List Row, (l.Pairwise fun r r' => r p.2 ≠ r' p.2) ↔ (l.map fun r => r p.2).Pairwise (· ≠ ·) := by
          intro l; rw [List.pairwise_map]
        rw [hp] at h2 ⊢
        simpa only [List.map_append, List.map_cons, hk] using h2
    | del l1 l2 old he =>
      subst he
      refine ⟨fun r hr => h1 r ?_, h2.sublist (List.Sublist.append_left (List.sublist_cons_self old l2) l1)⟩
      simp only [List.mem_append, List.mem_cons] at hr ⊢
      exact hr.imp id .inr
  refine ⟨fun p hp r hr => ?_, fun p hp => ?_, fun he => ?_⟩
  · by_cases ht : p.1 = t
    · exact (hkey p hp ht).1 r hr
    · exact hK p hp r (by rw [← hother _ ht]; exact hr)
  · by_cases ht : p.1 = t
    · exact (hkey p hp ht).2
    · rw [hother _ ht]; exact hA p hp
  · rw [hch] at hm
    cases x with
    | none => simp [effectChange] at hm
    | some q =>
      simp only [effectChange, List.mem_singleton] at hm
      subst hm
      obtain ⟨ev, o, n⟩ := q
      simp only at he
      subst he
      exact absurd (hins o n rfl) (hop n)

/-- Trigger writes keep keys. -/
theorem looseInv_nested (hT : Tracks E cb) (hL : LooksAtKeys cb) (hR : Ranked E rank) (hC : TrackedProp cb C) (t0 : TableName) :
    StepInv E (LooseInv E cb rank (.insert t0 []) C) where
  perm := looseInv_perm
  writeNil := looseInv_writeNil
  writeOp := fun {fr t op ops W db} h => by
    refine looseInv_writeOp hT hL hC ?_ h
    rcases h.items _ (List.mem_cons_self ..) with ⟨_, _, h3⟩ | ⟨col, hm, hops, _⟩
    · obtain ⟨r, hr, _⟩ := h3 op (List.mem_cons_self ..)
      cases hr
    · obtain ⟨i, σ, hop, hσ⟩ := hops op (List.mem_cons_self ..)
      refine keyed_removal h.keys h.apart (by simp [hop]) ?_
      intro i' σ' e p hp ht x r
      rw [hop] at e
      simp only [RowOp.upd.injEq] at e
      rw [← e.2]
      exact hσ x r p.2 fun hc => hT.pks p hp (by rw [ht, hc]; exact hm)
  markValues := looseInv_marks hC fun _ _ => covers_values
  markSelect := looseInv_marks hC fun _ hr => covers_select hr
  update := fun _ => looseInv_update hR

theorem LooseInv.swap {s s' : Stmt} {W : List Item} {db : Db} (h : LooseInv E cb rank s C W db) (ha : ∀ it ∈ W, it.isAct) :
    LooseInv E cb rank s' C W db :=
  ⟨h.keys, h.apart, fun it hit => itemOk_act (ha it hit) (h.items it hit), h.good⟩

/-- A row write that deletes, or that updates columns that are no keys. -/
def KeepsOldKeys (cb : Callback) (t : TableName) (op : RowOp) : Prop :=
  (∀ r, op ≠ .ins r) ∧ ∀ i σ, op = .upd i σ → ∀ p ∈ cb.pks, p.1 = t → ∀ x r, σ x r p.2 = r p.2

theorem looseInv_top (hT : Tracks E cb) (hL : LooksAtKeys cb) (hC : TrackedProp cb C) {s : Stmt} {t : TableName} {op : RowOp}
    {W : List Item} {db : Db} (ha : ∀ it ∈ W, it.isAct) (hP : KeepsOldKeys cb t op) (h : LooseInv E cb rank s C W db) :
    LooseInv E cb rank s C ((applyOp E t op db).2.flatMap (E.fired .top) ++ W) (applyOp E t op db).1 := by
  have h1 : LooseInv E cb rank (op.stmt t) C (.write .top t [op] :: W) db := by
    have h0 := h.swap (s' := op.stmt t) ha
    refine ⟨h0.keys, h0.apart, ?_, fun r hr => ?_⟩
    · intro it hit
      rcases List.mem_cons.1 hit with rfl | hit
      · exact .inl ⟨(op.stmt_table t).symm, rfl, by simpa using op.stmt_top t⟩
      · exact h0.items it hit
    · exact (h0.good r hr).imp id (Or.imp (fun ⟨it, h2, h3⟩ => ⟨it, List.mem_cons_of_mem _ h2, h3⟩) id)
  refine (looseInv_writeNil (looseInv_writeOp hT hL hC (keyed_removal h.keys h.apart hP.1 hP.2) h1)).swap ?_
  intro it hit
  rcases List.mem_append.1 hit with hit | hit
  · exact isAct_fired hit
  · exact ha it hit

theorem loose_execRefs (hb : E.backend ≠ .mysql) (hT : Tracks E cb) (hL : LooksAtKeys cb) (hN : NoReentry E) (hC : TrackedProp cb C)
    {fs : List ForeignRef} (hf : RefsKeepKeys cb fs) {fuel : Nat} {s : Stmt} {db db' : Db} (he : E.execRefs fs fuel s db = .ok db')
    (hQ : (∀ t w, s ≠ .delete t w) → ∀ p ∈ E.changesOf fuel s db, KeyedChange cb p.1 p.2) (hK : KeysOk cb db) (hA : KeysApart cb db)
    (hg : ∀ r ∈ db.rows cb.model.table, Marked cb.model db r ∨ C db r ∨ ∃ d ∈ cb.deps, d.dep.Dangles db r) :
    KeysOk cb db' ∧ KeysApart cb db' ∧
      ∀ r ∈ db'.rows cb.model.table, Marked cb.model db' r ∨ C db' r ∨ ∃ d ∈ cb.deps, d.dep.Dangles db' r := by
  cases s with
  | insert t rs => exact loose_exec hT hL hN hC he (hQ (by simp)) hK hA hg
  | update t w σ => exact loose_exec hT hL hN hC he (hQ (by simp)) hK hA hg
  | delete t w =>
    rw [Engine.execRefs_delete hb] at he
    obtain ⟨rank, hR⟩ := hN.ranked
    have := chain_inv (P := KeepsOldKeys cb) (fs := fs) (looseInv_nested hT hL hR hC t)
      (fun {t' op W db} ha hP h => looseInv_top hT hL hC ha hP h)
      (fun f hff o db op ho => by
        rcases mem_refOps ho with ⟨_, rfl⟩ | ⟨ha, i, rfl⟩
        · exact ⟨by simp, by simp⟩
        · refine ⟨by simp, ?_⟩
          intro i' σ' e p hp ht x r
          simp only [RowOp.upd.injEq] at e
          rw [← e.2]
          exact Row.set_away (hf f hff ha p hp ht))
      fuel _ _ _ he (fun td htd => todoOk_todos (fun op ho => by rw [mem_deleteOps ho]; exact ⟨by simp, by simp⟩) htd)
      (by rw [items_rows]; exact ⟨hK, hA, by simp, fun r hr => (hg r hr).imp id .inr⟩)
    refine ⟨this.keys, this.apart, fun r hr => ?_⟩
    rcases this.good r hr with h1 | ⟨it, h2, _⟩ | h4
    · exact .inl h1
    · simp at h2
    · exact .inr h4

theorem loose_runRefs (hb : E.backend ≠ .mysql) (hT : Tracks E cb) (hL : LooksAtKeys cb) (hN : NoReentry E) (hC : TrackedProp cb C)
    {fs : List ForeignRef} (hf : RefsKeepKeys cb fs) {fuel : Nat} :
    ∀ (ss : List Stmt) (db : Db), KeyedRefs E cb fs fuel ss db → KeysOk cb db → KeysApart cb db →
    (∀ r ∈ db.rows cb.model.table, Marked cb.model db r ∨ C db r ∨ ∃ d ∈ cb.deps, d.dep.Dangles db r) →
    KeysOk cb (E.runRefs fs fuel ss db) ∧ KeysApart cb (E.runRefs fs fuel ss db) ∧ ∀ r ∈ (E.runRefs fs fuel ss db).rows cb.model.table,
      Marked cb.model (E.runRefs fs fuel ss db) r ∨ C (E.runRefs fs fuel ss db) r ∨ ∃ d ∈ cb.deps, d.dep.Dangles (E.runRefs fs fuel ss db) r
  | [], db, _, hK, hA, hg => ⟨hK, hA, hg⟩
  | s :: ss, db, hq, hK, hA, hg => by
    obtain ⟨hq1, hq2⟩ := hq
    simp only [Engine.runRefs]
    cases he : E.execRefs fs fuel s db with
    | ok db' =>
      rw [he] at hq2
      obtain ⟨h1, h2, h3⟩ := loose_execRefs hb hT hL hN hC hf he hq1 hK hA hg
      exact loose_runRefs hb hT hL hN hC hf ss db' hq2 h1 h2 h3
    | error e =>
      rw [he] at hq2
      exact loose_runRefs hb hT hL hN hC hf ss db hq2 hK hA hg

end

/-! ## Looking at the keys as well -/

def DepRead.withKey (d : DepRead) : DepRead :=
  match d.dep.rel with
  | .forwardM2M (.generic _) => d
  | _ => { d with reads := d.dep.other.pk :: d.reads }

/-- The same declaration, with a callback that looks at keys too. -/
def Callback.withKeys (cb : Callback) : Callback := { cb with own := cb.model.pk :: cb.own, deps := cb.deps.map DepRead.withKey }

theorem DepRead.withKey_dep (d : DepRead) : d.withKey.dep = d.dep := by
  unfold DepRead.withKey; split <;> rfl

theorem withKeys_deps {cb : Callback} : cb.withKeys.deps.map (·.dep) = cb.deps.map (·.dep) := by
  simp [Callback.withKeys, DepRead.withKey_dep]

theorem withKeys_pks (cb : Callback) : cb.withKeys.pks = cb.pks := by
  simp [Callback.pks, Callback.withKeys, DepRead.withKey_dep]

theorem withKeys_denorm (cb : Callback) : cb.withKeys.denorm = cb.denorm := by
  simp [Callback.denorm, Callback.withKeys, DepRead.withKey_dep]

theorem mem_withKeys {cb : Callback} {d : DepRead} : d ∈ cb.withKeys.deps ↔ ∃ d0 ∈ cb.deps, d0.withKey = d := by
  simp [Callback.withKeys]

theorem forall_withKeys {cb : Callback} {P : Dep → Prop} : (∀ d ∈ cb.withKeys.deps, P d.dep) ↔ ∀ d ∈ cb.deps, P d.dep := by
  constructor
  · intro h d hd
    have := h _ (mem_withKeys.2 ⟨d, hd, rfl⟩)
    rwa [DepRead.withKey_dep] at this
  · intro h d hd
    obtain ⟨d0, h0, rfl⟩ := mem_withKeys.1 hd
    rw [DepRead.withKey_dep]; exact h d0 h0

theorem looksAtKeys_withKeys (cb : Callback) : LooksAtKeys cb.withKeys := by
  refine ⟨by simp [Callback.ownCols, Callback.withKeys], ?_⟩
  intro d hd hg
  obtain ⟨d0, h0, rfl⟩ := mem_withKeys.1 hd
  rw [DepRead.withKey_dep] at hg ⊢
  unfold DepRead.withKey
  split
  · rename_i g hf; exact absurd hf (hg g)
  · simp

theorem seen_tail {k : Col} {cols : List Col} {l l' : List Row} (h : seen (k :: cols) l = seen (k :: cols) l') : seen cols l = seen cols l' := by
  have : ∀ l : List Row, seen cols l = (seen (k :: cols) l).map List.tail := by intro l; simp [seen]
  rw [this, this, h]

theorem trackedProp_withKeys {cb : Callback} {C : Db → Row → Prop} (hC : TrackedProp cb C) : TrackedProp cb.withKeys C := by
  intro db db' r r' hown hpk hs h
  refine hC db db' r r' (fun c hc => hown c ?_) hpk (fun d hd => ?_) h
  · simp only [Callback.ownCols, Callback.withKeys, List.cons_append, List.mem_cons, List.mem_append, List.mem_flatMap, List.mem_map] at hc ⊢
    rcases hc with hc | hc | ⟨d, hd, hc⟩
    · exact .inl hc
    · exact .inr (.inr (.inl hc))
    · exact .inr (.inr (.inr ⟨_, ⟨d, hd, rfl⟩, by rw [DepRead.withKey_dep]; exact hc⟩))
  · have := hs _ (mem_withKeys.2 ⟨d, hd, rfl⟩)
    rw [DepRead.withKey_dep] at this
    unfold DepRead.withKey at this
    split at this
    · exact this
    · exact seen_tail this

theorem wellDeclared_withKeys {b : Backend} {D : List Denorm} {cb : Callback} (h : WellDeclared b D cb) (hk : KeysWatched cb) :
    WellDeclared b D cb.withKeys where
  declared := by rw [withKeys_denorm]; exact h.declared
  agree := by rw [withKeys_denorm]; exact h.agree
  table := h.table
  own := by
    intro c hc
    simp only [Callback.ownCols, Callback.withKeys, List.cons_append, List.mem_cons, List.mem_append, List.mem_flatMap, List.mem_map] at hc
    have up : c ∈ cb.ownCols → Watchable cb.model cb.skip c := h.own c
    simp only [Callback.ownCols, List.cons_append, List.mem_cons, List.mem_append, List.mem_flatMap] at up
    rcases hc with hc | hc | hc | ⟨_, ⟨d, hd, rfl⟩, hc⟩
    · exact up (.inl hc)
    · exact hc ▸ hk.1
    · exact up (.inr (.inl hc))
    · exact up (.inr (.inr ⟨d, hd, by rwa [DepRead.withKey_dep] at hc⟩))
  this := (forall_withKeys (P := fun d => d.this = cb.model)).2 h.this
  watched := by
    intro d hd
    obtain ⟨d0, h0, rfl⟩ := mem_withKeys.1 hd
    have h1 := h.watched d0 h0
    have h2 := hk.2 d0 h0
    rcases hf : d0.dep.rel with f | f | (m | g) | (m | g) <;>
      simp only [DepRead.Watched, DepRead.withKey, hf, List.mem_cons, forall_eq_or_imp] at h1 h2 ⊢
    · exact ⟨h2, h1⟩
    · exact ⟨h1.1, h2, h1.2⟩
    · exact ⟨h1.1, h2, h1.2⟩
    · exact h1
    · exact ⟨h1.1, h2, h1.2⟩
  keys := by rw [withKeys_pks]; exact h.keys
  links := (forall_withKeys (P := fun d => ∀ l ∈ d.m2mTable, ∀ dn ∈ D, (l.1, l.2.2) ∉ dn.writes)).2 h.links

theorem keyedChange_withKeys {cb : Callback} {ch : Change} {db : Db} (h : KeyedChange cb ch db) : KeyedChange cb.withKeys ch db := by
  refine ⟨?_, ?_, fun he => (forall_withKeys (P := fun d => d.other.table = ch.table → Unlinked d db ch.new)).2 (h.2.2 he)⟩
  · unfold KeysOk; rw [withKeys_pks]; exact h.1
  · unfold KeysApart; rw [withKeys_pks]; exact h.2.1

theorem keyedRun_withKeys {E : Engine} {cb : Callback} {fuel : Nat} : ∀ {ss : List Stmt} {db : Db}, KeyedRun E cb fuel ss db →
    KeyedRun E cb.withKeys fuel ss db
  | [], _, _ => trivial
  | s :: ss, db, h => by
    obtain ⟨h1, h2⟩ := h
    refine ⟨fun p hp => keyedChange_withKeys (h1 p hp), ?_⟩
    cases he : E.exec fuel s db with
    | ok db' => rw [he] at h2; exact keyedRun_withKeys h2
    | error e => rw [he] at h2; exact keyedRun_withKeys h2

/-- A history in which keys change. -/
theorem rekey_run {E : Engine} {D : List Denorm} {cb : Callback} (hE : Installed E D) (hD : WellDeclared E.backend D cb) (hW : KeysWatched cb)
    (hN : NoReentry E) {C : Db → Row → Prop} (hC : TrackedProp cb C) {fuel : Nat} {ss : List Stmt} {db : Db}
    (hq : KeyedRun E cb fuel ss db) (hK : KeysOk cb db) (hA : KeysApart cb db)
    (hg : ∀ r ∈ db.rows cb.model.table, Marked cb.model db r ∨ C db r) :
    KeysOk cb (E.run fuel ss db) ∧ ∀ r ∈ (E.run fuel ss db).rows cb.model.table,
      Marked cb.model (E.run fuel ss db) r ∨ C (E.run fuel ss db) r ∨ ∃ d ∈ cb.deps, d.dep.Dangles (E.run fuel ss db) r := by
  have := loose_run (cb := cb.withKeys) (tracks_of_installed hE (wellDeclared_withKeys hD hW)) (looksAtKeys_withKeys cb) hN
    (trackedProp_withKeys hC) ss db (keyedRun_withKeys hq) (by unfold KeysOk; rw [withKeys_pks]; exact hK)
    (by unfold KeysApart; rw [withKeys_pks]; exact hA) (fun r hr => (hg r hr).imp id .inl)
  obtain ⟨h1, _, h3⟩ := this
  refine ⟨by unfold KeysOk at h1; rw [withKeys_pks] at h1; exact h1, fun r hr => (h3 r hr).imp id (Or.imp id ?_)⟩
  rintro ⟨d, hd, h⟩
  obtain ⟨d0, h0, rfl⟩ := mem_withKeys.1 hd
  exact ⟨d0, h0, by rwa [DepRead.withKey_dep] at h⟩

theorem keyedRefs_withKeys {E : Engine} {cb : Callback} {fs : List ForeignRef} {fuel : Nat} : ∀ {ss : List Stmt} {db : Db},
    KeyedRefs E cb fs fuel ss db → KeyedRefs E cb.withKeys fs fuel ss db
  | [], _, _ => trivial
  | s :: ss, db, h => by
    obtain ⟨h1, h2⟩ := h
    refine ⟨fun hs p hp => keyedChange_withKeys (h1 hs p hp), ?_⟩
    cases he : E.execRefs fs fuel s db with
    | ok db' => rw [he] at h2; exact keyedRefs_withKeys h2
    | error e => rw [he] at h2; exact keyedRefs_withKeys h2

/-- Such a history on a database whose foreign keys delete and clear rows. -/
theorem rekey_runRefs {E : Engine} {D : List Denorm} {cb : Callback} (hb : E.backend ≠ .mysql) (hE : Installed E D)
    (hD : WellDeclared E.backend D cb) (hW : KeysWatched cb) (hN : NoReentry E) {C : Db → Row → Prop} (hC : TrackedProp cb C)
    {fs : List ForeignRef} (hf : RefsKeepKeys cb fs) {fuel : Nat} {ss : List Stmt} {db : Db}
    (hq : KeyedRefs E cb fs fuel ss db) (hK : KeysOk cb db) (hA : KeysApart cb db)
    (hg : ∀ r ∈ db.rows cb.model.table, Marked cb.model db r ∨ C db r) :
    KeysOk cb (E.runRefs fs fuel ss db) ∧ ∀ r ∈ (E.runRefs fs fuel ss db).rows cb.model.table,
      Marked cb.model (E.runRefs fs fuel ss db) r ∨ C (E.runRefs fs fuel ss db) r ∨ ∃ d ∈ cb.deps, d.dep.Dangles (E.runRefs fs fuel ss db) r := by
  have := loose_runRefs (cb := cb.withKeys) hb (tracks_of_installed hE (wellDeclared_withKeys hD hW)) (looksAtKeys_withKeys cb) hN
    (trackedProp_withKeys hC) (fs := fs) (by unfold RefsKeepKeys; rw [withKeys_pks]; exact hf) ss db (keyedRefs_withKeys hq)
    (by unfold KeysOk; rw [withKeys_pks]; exact hK) (by unfold KeysApart; rw [withKeys_pks]; exact hA) (fun r hr => (hg r hr).imp id .inl)
  obtain ⟨h1, _, h3⟩ := this
  refine ⟨by unfold KeysOk at h1; rw [withKeys_pks] at h1; exact h1, fun r hr => (h3 r hr).imp id (Or.imp id ?_)⟩
  rintro ⟨d, hd, h⟩
  obtain ⟨d0, h0, rfl⟩ := mem_withKeys.1 hd
  exact ⟨d0, h0, by rwa [DepRead.withKey_dep] at h⟩

end Denorm
