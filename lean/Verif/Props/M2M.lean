import Verif.Spec.M2M
import Verif.Lemmas.M2M
import Verif.Props.Save
import Verif.Props.Tracking
import Verif.Props.Rebuild
/-!
# Denormalized ManyToManyFields (C26, C27)
-/
namespace Denorm
variable {A : App} {om : OrmModel} {fs : List M2MField} {mem mem' : Row} {db db' : Db}

/-! ## C26 -/

/-- C26, `manager.set`: afterwards the instance is linked with exactly the given objects, no link is there twice that was not before,
and the links of other instances are as they were. -/
theorem C26_set {rel : M2M} {k : Val} {values : List Val} (hc : rel.colName ≠ rel.revName) (hU : Untouched A.engine rel.through) (hk : k ≠ .null)
    (h : A.m2mSet rel k values db = .ok db') :
    (∀ v, Linked rel db' k v ↔ v ∈ values) ∧ otherLinks rel db' k = otherLinks rel db k ∧
    ((linked rel k db).Nodup → (linked rel k db').Nodup) := by
  simp only [App.m2mSet] at h
  cases h1 : A.exec (.delete rel.through fun l => Val.sqlEq (l rel.colName) k && decide (l rel.revName ∈ (setPlan (linked rel k db) values).1)) db with
  | error e => rw [h1] at h; simp at h
  | ok db1 =>
    rw [h1] at h
    simp only [App.m2mAdd] at h
    have e1 := exec_delete_rows hU (exec_ok h1)
    have e2 := exec_insert_rows hU (exec_ok h)
    have hL : ∀ (d : Db) (v : Val), v ∈ linked rel k d ↔ Linked rel d k v := by
      intro d v
      simp only [linked, List.mem_map, List.mem_filter, Linked, Val.sqlEq_iff]
      constructor
      · rintro ⟨l, ⟨h1, h2, _⟩, h3⟩; exact ⟨l, h1, h2, h3⟩
      · rintro ⟨l, h1, h2, h3⟩; exact ⟨l, ⟨h1, h2, h2 ▸ hk⟩, h3⟩
    have hrow : ∀ v, linkRow rel k v rel.colName = k ∧ linkRow rel k v rel.revName = v := by
      intro v
      simp [linkRow, Ne.symm hc]
    have hL1 : ∀ v, v ∈ linked rel k db1 ↔ v ∈ linked rel k db ∧ v ∈ values := by
      intro v
      rw [hL, hL]
      simp only [Linked, e1, List.mem_filter, Bool.not_eq_true', Bool.and_eq_false_iff, decide_eq_false_iff_not, mem_setPlan_left]
      constructor
      · rintro ⟨l, ⟨h1, h2⟩, h3, h4⟩
        refine ⟨⟨l, h1, h3, h4⟩, ?_⟩
        rcases h2 with h2 | h2
        · exact absurd (Val.sqlEq_iff.2 ⟨h3, h3 ▸ hk⟩) (by simp [h2])
        · rw [h4] at h2
          exact Classical.byContradiction fun h5 => h2 ⟨(hL db v).2 ⟨l, h1, h3, h4⟩, h5⟩
      · rintro ⟨⟨l, h1, h3, h4⟩, h5⟩
        exact ⟨l, ⟨h1, .inr fun h6 => h6.2 (h4 ▸ h5)⟩, h3, h4⟩
    refine ⟨fun v => ?_, ?_, fun hn => ?_⟩
    · rw [← hL]
      simp only [linked, e2, List.filter_append, List.map_append, List.mem_append]
      rw [show v ∈ List.map (fun l => l rel.revName) (List.filter (fun l => Val.sqlEq (l rel.colName) k) (db1.rows rel.through)) ↔
        v ∈ linked rel k db1 from Iff.rfl, hL1]
      constructor
      · rintro (h | h)
        · exact h.2
        · obtain ⟨l, hl, rfl⟩ := List.mem_map.1 h
          obtain ⟨x, hx, rfl⟩ := List.mem_map.1 (List.mem_filter.1 hl).1
          rw [(hrow x).2]
          exact setPlan_right_sub (List.mem_filter.1 (mem_dedup.1 hx)).1
      · intro hv
        by_cases ho : v ∈ linked rel k db
        · exact .inl ⟨ho, hv⟩
        · refine .inr (List.mem_map.2 ⟨linkRow rel k v, List.mem_filter.2 ⟨List.mem_map.2 ⟨v, mem_dedup.2 (List.mem_filter.2 ⟨setPlan_right_new hv ho, ?_⟩), rfl⟩, ?_⟩, (hrow v).2⟩)
          · have : v ∉ linked rel k db1 := fun h6 => ho ((hL1 v).1 h6).1
            simpa [linked] using this
          · rw [(hrow v).1]; exact Val.sqlEq_iff.2 ⟨rfl, hk⟩
    · simp only [otherLinks, e2, e1, List.filter_append, List.filter_filter]
      have : ((dedup (List.filter (fun v => decide ¬v ∈ linked rel k db1) (setPlan (linked rel k db) values).2)).map (linkRow rel k)).filter
          (fun l => decide (l rel.colName ≠ k)) = [] := by
        rw [List.filter_eq_nil_iff]
        intro l hl
        obtain ⟨x, _, rfl⟩ := List.mem_map.1 hl
        simp [(hrow x).1]
      rw [this, List.append_nil]
      refine List.filter_congr fun l _ => ?_
      by_cases hlk : l rel.colName = k
      · simp [hlk]
      · have : Val.sqlEq (l rel.colName) k = false := by
          cases he : Val.sqlEq (l rel.colName) k with
          | false => rfl
          | true => exact absurd (Val.sqlEq_iff.1 he).1 hlk
        simp [hlk, this]
    · simp only [linked, e2, List.filter_append, List.map_append]
      rw [List.nodup_append]
      refine ⟨?_, ?_, ?_⟩
      · simp only [e1, List.filter_filter]
        refine List.Nodup.sublist (List.Sublist.map _ ?_) hn
        rw [show (fun a : Row => Val.sqlEq (a rel.colName) k && !(Val.sqlEq (a rel.colName) k && decide (a rel.revName ∈ (setPlan (linked rel k db) values).1))) =
          fun a => (!(Val.sqlEq (a rel.colName) k && decide (a rel.revName ∈ (setPlan (linked rel k db) values).1))) && Val.sqlEq (a rel.colName) k from
          funext fun a => Bool.and_comm ..]
        rw [← List.filter_filter]
        exact List.filter_sublist
      · rw [List.filter_eq_self.2]
        · rw [List.map_map, show ((fun l : Row => l rel.revName) ∘ linkRow rel k) = id from funext fun v => (hrow v).2, List.map_id]
          exact nodup_dedup _
        · intro l hl
          obtain ⟨x, _, rfl⟩ := List.mem_map.1 hl
          rw [(hrow x).1]; exact Val.sqlEq_iff.2 ⟨rfl, hk⟩
      · intro a ha b hb
        obtain ⟨l, hl, rfl⟩ := List.mem_map.1 hb
        obtain ⟨x, hx, rfl⟩ := List.mem_map.1 (List.mem_filter.1 hl).1
        rw [(hrow x).2]
        have := (List.mem_filter.1 (mem_dedup.1 hx)).2
        intro e
        subst e
        exact absurd ha (by simpa [linked] using this)

theorem m2mSet_rows {rel : M2M} {k : Val} {values : List Val} {t : TableName} (ht : rel.through ≠ t) (hU : Untouched A.engine t)
    (h : A.m2mSet rel k values db = .ok db') : db'.rows t = db.rows t := by
  simp only [App.m2mSet] at h
  cases h1 : A.exec (.delete rel.through fun l => Val.sqlEq (l rel.colName) k && decide (l rel.revName ∈ (setPlan (linked rel k db) values).1)) db with
  | error e => rw [h1] at h; simp at h
  | ok db1 =>
    rw [h1] at h
    rw [exec_rows_other hU (by exact ht) (exec_ok h), exec_rows_other hU (by exact ht) (exec_ok h1)]

theorem m2mSet_col {rel : M2M} {k : Val} {values : List Val} {t : TableName} {c : Col} (ht : rel.through ≠ t) (hU : ColUntouched A.engine t c)
    (h : A.m2mSet rel k values db = .ok db') : (db'.rows t).map (fun r => r c) = (db.rows t).map fun r => r c := by
  simp only [App.m2mSet] at h
  cases h1 : A.exec (.delete rel.through fun l => Val.sqlEq (l rel.colName) k && decide (l rel.revName ∈ (setPlan (linked rel k db) values).1)) db with
  | error e => rw [h1] at h; simp at h
  | ok db1 =>
    rw [h1] at h
    rw [exec_col_other hU (by exact ht) (exec_ok h), exec_col_other hU (by exact ht) (exec_ok h1)]

theorem m2mSetAll_rows {t : TableName} (hU : Untouched A.engine t) : ∀ {fs : List M2MField} {db : Db}, (∀ f ∈ fs, f.rel.through ≠ t) →
    A.m2mSetAll om mem fs db = .ok db' → db'.rows t = db.rows t
  | [], db, _, h => by
    simp only [App.m2mSetAll, Except.ok.injEq] at h
    rw [h]
  | f :: fs, db, ht, h => by
    simp only [App.m2mSetAll] at h
    cases h1 : A.m2mSet f.rel (mem om.model.pk) (f.fn db mem) db with
    | error e => rw [h1] at h; simp at h
    | ok db1 =>
      rw [h1] at h
      rw [m2mSetAll_rows hU (fun f hf => ht f (List.mem_cons_of_mem _ hf)) h, m2mSet_rows (ht f (List.mem_cons_self ..)) hU h1]

theorem m2mSetAll_col {t : TableName} {c : Col} (hU : ColUntouched A.engine t c) : ∀ {fs : List M2MField} {db : Db},
    (∀ f ∈ fs, f.rel.through ≠ t) → A.m2mSetAll om mem fs db = .ok db' → (db'.rows t).map (fun r => r c) = (db.rows t).map fun r => r c
  | [], db, _, h => by
    simp only [App.m2mSetAll, Except.ok.injEq] at h
    rw [h]
  | f :: fs, db, ht, h => by
    simp only [App.m2mSetAll] at h
    cases h1 : A.m2mSet f.rel (mem om.model.pk) (f.fn db mem) db with
    | error e => rw [h1] at h; simp at h
    | ok db1 =>
      rw [h1] at h
      rw [m2mSetAll_col hU (fun f hf => ht f (List.mem_cons_of_mem _ hf)) h, m2mSet_col (ht f (List.mem_cons_self ..)) hU h1]

theorem m2mSetAll_append : ∀ {pre post : List M2MField} {db : Db}, A.m2mSetAll om mem (pre ++ post) db = .ok db' →
    ∃ d, A.m2mSetAll om mem pre db = .ok d ∧ A.m2mSetAll om mem post d = .ok db'
  | [], post, db, h => ⟨db, rfl, h⟩
  | f :: pre, post, db, h => by
    simp only [List.cons_append, App.m2mSetAll] at h ⊢
    cases h1 : A.m2mSet f.rel (mem om.model.pk) (f.fn db mem) db with
    | error e => rw [h1] at h; simp at h
    | ok db1 =>
      rw [h1] at h
      exact m2mSetAll_append h

/-- save() does not touch the tables that are not the model's. -/
theorem save_rows_other {t : TableName} (ht : om.model.table ≠ t) (hU : Untouched A.engine t) (h : A.save om mem db = .ok (db', mem')) :
    db'.rows t = db.rows t := by
  simp only [App.save] at h
  cases hp : preSaveAll A om.model db false om.saved mem with
  | error e => rw [hp] at h; simp at h
  | ok mem1 =>
    rw [hp] at h
    simp only at h
    split at h
    · cases he : A.exec (saveUpdate om mem1) db with
      | error e => rw [he] at h; simp at h
      | ok x =>
        rw [he] at h
        simp only [Except.ok.injEq, Prod.mk.injEq] at h
        rw [← h.1, exec_rows_other hU (by exact ht) (exec_ok he)]
    · cases hp2 : preSaveAll A om.model db true om.saved mem1 with
      | error e => rw [hp2] at h; simp at h
      | ok mem2 =>
        rw [hp2] at h
        simp only at h
        cases he : A.exec (.insert om.model.table [mem2]) db with
        | error e => rw [he] at h; simp at h
        | ok x =>
          rw [he] at h
          simp only [Except.ok.injEq, Prod.mk.injEq] at h
          rw [← h.1, exec_rows_other hU (by exact ht) (exec_ok he)]

/-- C26: save() of an instance with a (truthy) key leaves every denormalized ManyToManyField with exactly the objects its callback
returned. The callbacks run one after the other, before anything else of the instance is written: `d` is the database when the callback of
`f` runs. Missing: keys that are falsy (`C26_violated_zero_key`). -/
theorem C26_exact_partial {created : Bool} (hP : ProperM2M A.engine om fs) (hk : (mem om.model.pk).truthy = true)
    (h : A.saveOnce om fs mem db = .ok (db', mem', created)) {pre post : List M2MField} {f : M2MField} (hfs : fs = pre ++ f :: post) :
    ∃ d, A.m2mSetAll om mem pre db = .ok d ∧ (∀ v, Linked f.rel db' (mem om.model.pk) v ↔ v ∈ f.fn d mem) ∧
      otherLinks f.rel db' (mem om.model.pk) = otherLinks f.rel db (mem om.model.pk) := by
  subst hfs
  have hn : mem om.model.pk ≠ .null := by intro e; rw [e] at hk; simp [Val.truthy] at hk
  have hf := hP.each f (by simp)
  simp only [App.saveOnce, App.m2mPreSave, hk, if_true] at h
  cases h1 : A.m2mSetAll om mem (pre ++ f :: post) db with
  | error e => rw [h1] at h; simp at h
  | ok db1 =>
    rw [h1] at h
    simp only at h
    cases h2 : A.save om mem db1 with
    | error e => rw [h2] at h; simp at h
    | ok p =>
      obtain ⟨db2, mem2⟩ := p
      rw [h2] at h
      simp only [Except.ok.injEq, Prod.mk.injEq] at h
      obtain ⟨d, hd1, hd2⟩ := m2mSetAll_append h1
      simp only [App.m2mSetAll] at hd2
      cases h3 : A.m2mSet f.rel (mem om.model.pk) (f.fn d mem) d with
      | error e => rw [h3] at hd2; simp at hd2
      | ok d1 =>
        rw [h3] at hd2
        have hdis := hP.distinct
        rw [List.map_append, List.map_cons, List.nodup_append, List.nodup_cons] at hdis
        have hpost : ∀ g ∈ post, g.rel.through ≠ f.rel.through := fun g hg e =>
          hdis.2.1.1 (e ▸ List.mem_map_of_mem hg)
        have hpre : ∀ g ∈ pre, g.rel.through ≠ f.rel.through := fun g hg e =>
          hdis.2.2 _ (List.mem_map_of_mem hg) _ (by rw [e]; exact List.mem_cons_self ..) rfl
        have e1 : db'.rows f.rel.through = d1.rows f.rel.through := by
          rw [← h.1, save_rows_other (Ne.symm hf.table) hf.free h2, m2mSetAll_rows hf.free hpost hd2]
        have e2 := m2mSetAll_rows hf.free hpre hd1
        obtain ⟨s1, s2, _⟩ := C26_set hf.cols hf.free hn h3
        refine ⟨d, hd1, fun v => ?_, ?_⟩
        · rw [← s1 v]; simp only [Linked, e1]
        · have : otherLinks f.rel db (mem om.model.pk) = otherLinks f.rel d (mem om.model.pk) := by simp only [otherLinks, e2]
          rw [this, ← s2]; simp only [otherLinks, e1]

theorem m2mPreSave_keys (hP : ProperM2M A.engine om fs) (hK : KeyFree A.engine om) (h : A.m2mPreSave om fs mem db = .ok db') :
    (db'.rows om.model.table).map (fun r => r om.model.pk) = (db.rows om.model.table).map fun r => r om.model.pk := by
  simp only [App.m2mPreSave] at h
  split at h
  · exact m2mSetAll_col (t := om.model.table) hK (fun f hf => (hP.each f hf).table) h
  · simp only [Except.ok.injEq] at h; rw [h]

/-- An instance that exists is not created by save(). -/
theorem saveOnce_existing {created : Bool} (hP : ProperM2M A.engine om fs) (hK : KeyFree A.engine om) (hn : mem om.model.pk ≠ .null)
    (hr : ∃ r ∈ db.rows om.model.table, r om.model.pk = mem om.model.pk) (h : A.saveOnce om fs mem db = .ok (db', mem', created)) :
    created = false := by
  simp only [App.saveOnce] at h
  cases h1 : A.m2mPreSave om fs mem db with
  | error e => rw [h1] at h; simp at h
  | ok db1 =>
    rw [h1] at h
    simp only at h
    cases h2 : A.save om mem db1 with
    | error e => rw [h2] at h; simp at h
    | ok p =>
      rw [h2] at h
      simp only [Except.ok.injEq, Prod.mk.injEq] at h
      rw [← h.2.2]
      have hm := m2mPreSave_keys hP hK h1
      obtain ⟨r, hr1, hr2⟩ := hr
      have : mem om.model.pk ∈ (db1.rows om.model.table).map fun r => r om.model.pk := by
        rw [hm, ← hr2]; exact List.mem_map_of_mem hr1
      obtain ⟨r', h3, h4⟩ := List.mem_map.1 this
      simp only [Bool.not_eq_false']
      exact List.any_eq_true.2 ⟨r', h3, Val.sqlEq_iff.2 ⟨h4, h4 ▸ hn⟩⟩

/-- save() with the signals, of an instance that exists: one save. -/
theorem saveModel_existing {n : Nat} (hP : ProperM2M A.engine om fs) (hK : KeyFree A.engine om) (hn : mem om.model.pk ≠ .null)
    (hr : ∃ r ∈ db.rows om.model.table, r om.model.pk = mem om.model.pk) :
    A.saveModel om fs (n + 1) mem db = (A.saveOnce om fs mem db).map fun p => some (p.1, p.2.1) := by
  simp only [App.saveModel]
  cases h : A.saveOnce om fs mem db with
  | error e => rfl
  | ok p =>
    obtain ⟨a, b, c⟩ := p
    have := saveOnce_existing hP hK hn hr h
    subst this
    simp [Except.map]

/-- C26, an instance created without a key: it is saved exactly one extra time, with the key it got. -/
theorem C26_created_once_more {n : Nat} {k : Val} {db1 : Db} {mem1 : Row} (hP : ProperM2M A.engine om fs) (hK : KeyFree A.engine om)
    (hu : om.Unique db) (hnew : ∀ r ∈ db.rows om.model.table, r om.model.pk ≠ k) (hk : k ≠ .null) (hfs : fs ≠ [])
    (h : A.create om mem k db = .ok (db1, mem1)) :
    A.createModel om fs (n + 1) mem k db = (A.saveOnce om fs mem1 db1).map (fun p => some (p.1, p.2.1)) ∧ mem1 om.model.pk = k := by
  have hm : mem1 om.model.pk = k ∧ A.engine.exec A.fuel (.insert om.model.table [mem1]) db = .ok db1 := by
    simp only [App.create] at h
    cases hp : preSaveAll A om.model db true om.saved mem with
    | error e => rw [hp] at h; simp at h
    | ok m =>
      rw [hp] at h
      simp only at h
      cases he : A.exec (.insert om.model.table [m.set om.model.pk k]) db with
      | error e => rw [he] at h; simp at h
      | ok x =>
        rw [he] at h
        simp only [Except.ok.injEq, Prod.mk.injEq] at h
        obtain ⟨rfl, rfl⟩ := h
        exact ⟨by simp [Row.set], exec_ok he⟩
  refine ⟨?_, hm.1⟩
  have hs := (stored_insert hu (by rw [hm.1]; exact hnew) (saveSafe_of hK) hm.2).1
  simp only [App.createModel, h]
  have : fs.isEmpty = false := by cases fs with
    | nil => exact absurd rfl hfs
    | cons => rfl
  simp only [this, Bool.not_false, if_true]
  exact saveModel_existing hP hK (by rw [hm.1]; exact hk) hs

/-- C26, the relation of a created instance is filled: the extra save leaves it with exactly what the callback returns. Missing: falsy
keys. -/
theorem C26_created_filled_partial {n : Nat} {k : Val} (hP : ProperM2M A.engine om fs) (hK : KeyFree A.engine om)
    (hu : om.Unique db) (hnew : ∀ r ∈ db.rows om.model.table, r om.model.pk ≠ k) (hk : k.truthy = true)
    (h : A.createModel om fs (n + 1) mem k db = .ok (some (db', mem'))) {pre post : List M2MField} {f : M2MField} (hfs : fs = pre ++ f :: post) :
    ∃ db1 mem1 d, A.create om mem k db = .ok (db1, mem1) ∧ A.m2mSetAll om mem1 pre db1 = .ok d ∧
      ∀ v, Linked f.rel db' k v ↔ v ∈ f.fn d mem1 := by
  have hn : k ≠ .null := by intro e; rw [e] at hk; simp [Val.truthy] at hk
  cases hc : A.create om mem k db with
  | error e => simp [App.createModel, hc] at h
  | ok p =>
    obtain ⟨db1, mem1⟩ := p
    obtain ⟨h1, h2⟩ := C26_created_once_more (n := n) hP hK hu hnew hn (by rw [hfs]; simp) hc
    rw [h1] at h
    cases hs : A.saveOnce om fs mem1 db1 with
    | error e => rw [hs] at h; simp [Except.map] at h
    | ok q =>
      obtain ⟨a, b, c⟩ := q
      rw [hs] at h
      simp only [Except.map, Except.ok.injEq, Option.some.injEq, Prod.mk.injEq] at h
      obtain ⟨d, e1, e2, _⟩ := C26_exact_partial hP (by rw [h2]; exact hk) hs hfs
      rw [h2, h.1] at e2
      exact ⟨db1, mem1, d, rfl, e1, e2⟩

/-- The row a new instance was saved as is there after its save. -/
theorem saveOnce_created (hO : om.Proper) (hP : ProperM2M A.engine om fs) (hK : KeyFree A.engine om) (hu : om.Unique db)
    (hn : mem om.model.pk ≠ .null) {db1 : Db} {mem1 : Row} (h1 : A.saveOnce om fs mem db = .ok (db1, mem1, true)) :
    mem1 om.model.pk = mem om.model.pk ∧ ∃ r ∈ db1.rows om.model.table, r om.model.pk = mem1 om.model.pk := by
  simp only [App.saveOnce] at h1
  cases h2 : A.m2mPreSave om fs mem db with
  | error e => rw [h2] at h1; simp at h1
  | ok d =>
    rw [h2] at h1
    simp only at h1
    cases h3 : A.save om mem d with
    | error e => rw [h3] at h1; simp at h1
    | ok q =>
      obtain ⟨d2, m2⟩ := q
      rw [h3] at h1
      simp only [Except.ok.injEq, Prod.mk.injEq, Bool.not_eq_true'] at h1
      obtain ⟨rfl, rfl, h1⟩ := h1
      have hud : om.Unique d := by unfold OrmModel.Unique; rw [m2mPreSave_keys hP hK h2]; exact hu
      have hnew : ∀ r ∈ d.rows om.model.table, r om.model.pk ≠ mem om.model.pk := by
        intro r hr e
        have := List.any_eq_false.1 h1 r hr
        exact this (Val.sqlEq_iff.2 ⟨e, e ▸ hn⟩)
      simp only [App.save] at h3
      cases hp : preSaveAll A om.model d false om.saved mem with
      | error e => rw [hp] at h3; simp at h3
      | ok ma =>
        rw [hp] at h3
        simp only [h1, Bool.false_eq_true, if_false] at h3
        cases hp2 : preSaveAll A om.model d true om.saved ma with
        | error e => rw [hp2] at h3; simp at h3
        | ok mb =>
          rw [hp2] at h3
          simp only at h3
          cases he : A.exec (.insert om.model.table [mb]) d with
          | error e => rw [he] at h3; simp at h3
          | ok x =>
            rw [he] at h3
            simp only [Except.ok.injEq, Prod.mk.injEq] at h3
            obtain ⟨rfl, rfl⟩ := h3
            have e1 : mb om.model.pk = mem om.model.pk := (preSaveAll_pk hO hp2).trans (preSaveAll_pk hO hp)
            exact ⟨e1, (stored_insert hud (by rw [e1]; exact hnew) (saveSafe_of hK) (exec_ok he)).1⟩

/-- C26, an instance created with a key of its own: it is saved exactly one extra time. -/
theorem C26_chosen_key_once_more {n : Nat} {db1 : Db} {mem1 : Row} {created : Bool} (hO : om.Proper) (hP : ProperM2M A.engine om fs)
    (hK : KeyFree A.engine om) (hu : om.Unique db) (hn : mem om.model.pk ≠ .null) (hfs : fs ≠ [])
    (hnew : ∀ r ∈ db.rows om.model.table, r om.model.pk ≠ mem om.model.pk) (h : A.saveOnce om fs mem db = .ok (db1, mem1, created)) :
    A.saveModel om fs (n + 2) mem db = (A.saveOnce om fs mem1 db1).map (fun p => some (p.1, p.2.1)) ∧ mem1 om.model.pk = mem om.model.pk := by
  have hc : created = true := by
    simp only [App.saveOnce] at h
    cases h2 : A.m2mPreSave om fs mem db with
    | error e => rw [h2] at h; simp at h
    | ok d =>
      rw [h2] at h
      simp only at h
      cases h3 : A.save om mem d with
      | error e => rw [h3] at h; simp at h
      | ok q =>
        obtain ⟨d2, m2⟩ := q
        rw [h3] at h
        simp only [Except.ok.injEq, Prod.mk.injEq] at h
        rw [← h.2.2, Bool.not_eq_true']
        refine List.any_eq_false.2 fun r hr e => ?_
        have : r om.model.pk ∈ (d.rows om.model.table).map fun r => r om.model.pk := List.mem_map_of_mem hr
        rw [m2mPreSave_keys hP hK h2] at this
        obtain ⟨r', hr', e'⟩ := List.mem_map.1 this
        exact hnew r' hr' (e'.trans (Val.sqlEq_iff.1 e).1)
  subst hc
  obtain ⟨e1, e2⟩ := saveOnce_created hO hP hK hu hn h
  refine ⟨?_, e1⟩
  have hf : fs.isEmpty = false := by cases fs with
    | nil => exact absurd rfl hfs
    | cons => rfl
  rw [App.saveModel, h]
  simp only [hf, Bool.not_false, Bool.and_self, if_true]
  exact saveModel_existing hP hK (by rw [e1]; exact hn) e2

/-- C26, an instance saved with a key of its own: the row it was saved as is there, so a second save finds it. At most two saves,
whatever the fields and callbacks are. -/
theorem C26_never_loops {n : Nat} (hO : om.Proper) (hP : ProperM2M A.engine om fs) (hK : KeyFree A.engine om) (hu : om.Unique db)
    (hn : mem om.model.pk ≠ .null) : A.saveModel om fs (n + 2) mem db ≠ .ok none := by
  intro h
  rw [App.saveModel] at h
  cases h1 : A.saveOnce om fs mem db with
  | error e => rw [h1] at h; simp at h
  | ok p =>
    obtain ⟨db1, mem1, created⟩ := p
    rw [h1] at h
    simp only at h
    split at h
    · rename_i hcr
      have hcr : created = true := by simp at hcr; exact hcr.1
      subst hcr
      have := saveOnce_created hO hP hK hu hn h1
      rw [saveModel_existing hP hK (by rw [this.1]; exact hn) this.2] at h
      cases hs : A.saveOnce om fs mem1 db1 with
      | error e => rw [hs] at h; simp [Except.map] at h
      | ok q => rw [hs] at h; simp [Except.map] at h
    · simp at h


/-! ## C27 -/

theorem run_rows_other {E : Engine} {t : TableName} (hU : Untouched E t) {fuel : Nat} : ∀ {ss : List Stmt} {db : Db}, (∀ s ∈ ss, s.table ≠ t) →
    (E.run fuel ss db).rows t = db.rows t
  | [], _, _ => rfl
  | s :: ss, db, h => by
    have h' : ∀ s ∈ ss, s.table ≠ t := fun s hs => h s (List.mem_cons_of_mem _ hs)
    simp only [Engine.run]
    split
    · rename_i db1 he
      rw [run_rows_other hU h', exec_rows_other hU (h s (List.mem_cons_self ..)) he]
    · exact run_rows_other hU h'

/-- C27, what holds. Suppose the model also has a (concrete) @denormalized field `cb` with the same dependencies, and the callback of the
ManyToManyField reads nothing else. Then after any history of changes (other than of the relation itself) an instance whose relation is
not what the callback returns is marked, and so is saved by flush(), which fills the relation (`C26_exact_partial`). Missing: a
ManyToManyField without such a field, for which the claim is false (`C27_violated`). -/
theorem C27_stale_marked_partial {E : Engine} {D : List Denorm} {cb : Callback} {fuel : Nat} (hE : Installed E D) (hD : WellDeclared E.backend D cb)
    (hN : NoReentry E) {ss : List Stmt} {db0 : Db} (hL : LegalRun E cb fuel ss db0) (hK : KeysOk cb db0)
    {f : M2MField} {g : List Val → List (List (List Val)) → List Val}
    (hf : ∀ (db : Db) (r : Row), f.fn db r = g (cb.own.map r) (cb.deps.map fun d => seen d.reads (relatedRows d.dep db r)))
    (hU : Untouched E f.rel.through) (hss : ∀ s ∈ ss, s.table ≠ f.rel.through)
    (hfresh : ∀ r ∈ db0.rows cb.model.table, ∀ v, Linked f.rel db0 (r cb.model.pk) v ↔ v ∈ f.fn db0 r) :
    ∀ r ∈ (E.run fuel ss db0).rows cb.model.table, ¬ Marked cb.model (E.run fuel ss db0) r →
      ∀ v, Linked f.rel (E.run fuel ss db0) (r cb.model.pk) v ↔ v ∈ f.fn (E.run fuel ss db0) r := by
  intro r hr hnm v
  obtain ⟨r0, h0, h1, h2, h3⟩ := unmarked_sees_the_same hE hD hN hL hK r hr hnm
  have h4 : f.fn (E.run fuel ss db0) r = f.fn db0 r0 := by
    rw [hf, hf]
    congr 1
    · exact List.map_congr_left fun c hc => (h2 c (List.mem_cons_of_mem _ hc)).symm
    · exact List.map_congr_left fun d hd => (h3 d hd).symm
  rw [h4, ← hfresh r0 h0 v, h1]
  simp only [Linked, run_rows_other hU hss]

end Denorm

namespace Denorm

/-! ## The hypotheses can be met -/

namespace Fans
open Demo (fld fkf row)
set_option maxRecDepth 100000

/-- Topic(best); Fan(topic, best, favourites): `best` copies `topic.best`, `favourites` is a denormalized ManyToManyField to Post with the
callback `return [self.topic.best]`. -/
def topic : Model :=
  { repr := "<class 'app.Topic'>", appLabel := "app", name := "Topic", table := "topic", pkTable := "topic", pk := "id", ct := 61,
    fields := [fld "id", fld "best"] }
def fanTopic : Field := fkf "topic" "<class 'app.Topic'>"
def favouritesRel : M2M := ⟨"favourites", "<class 'app.Post'>", "fan_favourites", "fan_id", "post_id"⟩
def fan : Model :=
  { repr := "<class 'app.Fan'>", appLabel := "app", name := "Fan", table := "fan", pkTable := "fan", pk := "id", ct := 62,
    fields := [fld "id", fanTopic, fld "best"], m2ms := [favouritesRel] }
def topicDep : DepRead := ⟨⟨fan, topic, .forward fanTopic, []⟩, ["best"]⟩
def bestFn : List Val → List (List (List Val)) → Val
  | _, [[[v]]] => v
  | _, _ => .null
def favFn : List Val → List (List (List Val)) → List Val
  | _, [[[v]]] => [v]
  | _, _ => []
def best : Callback := { model := fan, field := "best", own := [], deps := [topicDep], fn := bestFn }
def favourites : M2MField := ⟨favouritesRel, fun db r => favFn ([].map r) ([topicDep].map fun d => seen d.reads (relatedRows d.dep db r))⟩
/-- A second one, that is always empty. -/
def disliked : M2MField := ⟨⟨"disliked", "<class 'app.Post'>", "fan_disliked", "fan_id", "post_id"⟩, fun _ _ => []⟩
def favouritesDenorm : Denorm := .callback false fan "favourites" [] [topicDep.dep]

/-- The registry, with and without the field `best`. -/
def reg (withBest : Bool) : List RegModel :=
  [⟨topic, false, [⟨"id", none⟩, ⟨"best", none⟩], []⟩,
   ⟨fan, false, [⟨"id", none⟩, ⟨"topic", none⟩] ++ (if withBest then [⟨"best", some best.denorm⟩] else []), [⟨"favourites", some favouritesDenorm⟩]⟩]
def decls (withBest : Bool) : List Denorm := getAlldenorms (fun _ => false) (reg withBest)
def engine (b : Backend) (withBest : Bool) : Engine := ⟨b, installedTriggers b (decls withBest), fun _ => 0⟩
def fanOrm (withBest : Bool) : OrmModel := ⟨fan, [⟨"topic_id", .plain⟩] ++ if withBest then [⟨"best", .callback best⟩] else []⟩
def app (b : Backend) (withBest : Bool) : App := ⟨engine b withBest, [fanOrm withBest], fun l => l, fun db _ _ => db.draws, 100⟩
def trow (id best : Int) : Row := row [("id", .int id), ("best", .int best)]
def frow (id topic best : Int) : Row := row [("id", .int id), ("topic_id", .int topic), ("best", .int best)]
def link (fan post : Int) : Row := row [("fan_id", .int fan), ("post_id", .int post)]

def db : Db :=
  ⟨fun t => if t = "topic" then [trow 1 10] else if t = "fan" then [frow 1 1 10, frow 2 1 10] else
    if t = "fan_favourites" then [link 1 10, link 2 10] else [], [], 0⟩
/-- `Topic.objects.update(best=20)` -/
def change : Stmt := .update "topic" (fun _ => true) fun _ r => r.set "best" (.int 20)

theorem noUpdates (b : Backend) (w : Bool) : ∀ tr ∈ (engine b w).triggers, tr.updates = [] := by cases b <;> cases w <;> decide
theorem untouched (b : Backend) (w : Bool) (t : TableName) : Untouched (engine b w) t := by
  intro tr htr u hu
  have := DbTrigger.mem_updates.2 hu
  simp [noUpdates b w tr htr] at this
theorem keyFree (b : Backend) (w : Bool) (om : OrmModel) : KeyFree (engine b w) om := by
  intro tr htr u hu
  have := DbTrigger.mem_updates.2 hu
  simp [noUpdates b w tr htr] at this
theorem fanProper (w : Bool) : (fanOrm w).Proper := by cases w <;> exact ⟨by decide, by decide⟩
theorem proper (b : Backend) (w : Bool) : ProperM2M (engine b w) (fanOrm w) [favourites, disliked] where
  each := by
    intro f hf
    have : f = favourites ∨ f = disliked := by simpa using hf
    rcases this with rfl | rfl
    · exact ⟨by decide, by cases w <;> decide, untouched b w _⟩
    · exact ⟨by decide, by cases w <;> decide, untouched b w _⟩
  distinct := by decide

theorem agree (b : Backend) : AgreeOnWatch b (decls true) := by cases b <;> decide
theorem wd (b : Backend) : WellDeclared b (decls true) best where
  declared := List.mem_singleton.2 rfl
  agree := fun _ hg => covered_of_agree (agree b) (List.mem_flatMap.2 ⟨_, by decide, hg⟩)
  table := by decide
  own := by decide
  this := by decide
  watched := by decide
  keys := by decide
  links := by decide

/-- The database after the topic has changed. -/
def db2 : Db :=
  ⟨fun t => if t = "topic" then [trow 1 20] else if t = "fan" then [frow 1 1 10, frow 2 1 10] else
    if t = "fan_favourites" then [link 1 10, link 2 10, link 1 11] else [], [], 0⟩

/-- `C26_exact_partial`: fan 1 was linked with 10 and 11, is saved, and then is linked with 20. -/
example (b : Backend) : ∃ p, (app b true).saveOnce (fanOrm true) [favourites, disliked] (frow 1 1 10) db2 = .ok p ∧
    linked favouritesRel (.int 1) p.1 = [.int 20] ∧ linked favouritesRel (.int 2) p.1 = [.int 10] ∧ p.2.2 = false := by
  have hx : (match (app b true).saveOnce (fanOrm true) [favourites, disliked] (frow 1 1 10) db2 with
      | .ok p => decide (linked favouritesRel (.int 1) p.1 = [.int 20] ∧ linked favouritesRel (.int 2) p.1 = [.int 10] ∧ p.2.2 = false)
      | _ => false) = true := by cases b <;> decide +kernel
  cases h : (app b true).saveOnce (fanOrm true) [favourites, disliked] (frow 1 1 10) db2 with
  | error e => rw [h] at hx; simp at hx
  | ok p => rw [h] at hx; exact ⟨p, rfl, by simpa using hx⟩

/-- `C26_created_filled_partial`: a new fan gets the key 7 and the relation is filled. -/
example (b : Backend) : ∃ p, (app b true).createModel (fanOrm true) [favourites, disliked] 1 (frow 0 1 0) (.int 7) db = .ok (some p) ∧
    linked favouritesRel (.int 7) p.1 = [.int 10] := by
  have hx : (match (app b true).createModel (fanOrm true) [favourites, disliked] 1 (frow 0 1 0) (.int 7) db with
      | .ok (some p) => decide (linked favouritesRel (.int 7) p.1 = [.int 10])
      | _ => false) = true := by cases b <;> decide +kernel
  cases h : (app b true).createModel (fanOrm true) [favourites, disliked] 1 (frow 0 1 0) (.int 7) db with
  | error e => rw [h] at hx; simp at hx
  | ok o =>
    cases o with
    | none => rw [h] at hx; simp at hx
    | some p => rw [h] at hx; exact ⟨p, rfl, by simpa using hx⟩

/-- `C26_never_loops` bounds the number of saves tightly: with a chosen key there are two. -/
example (b : Backend) : (app b true).saveModel (fanOrm true) [favourites] 2 (frow 7 1 0) db ≠ .ok none ∧
    (match (app b true).saveModel (fanOrm true) [favourites] 1 (frow 7 1 0) db with
      | .ok none => true
      | _ => false) = true :=
  ⟨C26_never_loops (fanProper true) ⟨fun f hf => (proper b true).each f (by simp at hf; simp [hf]), by decide⟩ (keyFree b true _)
    (by unfold OrmModel.Unique; decide) (by decide), by cases b <;> decide +kernel⟩

/-- `C26_chosen_key_once_more`: a fan saved with the key 7, which is new. -/
example (b : Backend) : (fanOrm true).Proper ∧ ProperM2M (engine b true) (fanOrm true) [favourites, disliked] ∧ KeyFree (engine b true) (fanOrm true) ∧
    (fanOrm true).Unique db ∧ (∀ r ∈ db.rows "fan", r "id" ≠ .int 7) ∧
    (match (app b true).saveOnce (fanOrm true) [favourites, disliked] (frow 7 1 0) db with
      | .ok p => p.2.2
      | _ => false) = true :=
  ⟨fanProper true, proper b true, keyFree b true _, by unfold OrmModel.Unique; decide, by decide, by cases b <;> decide +kernel⟩

/-- `C27_stale_marked_partial`: both fans are marked by the change of the topic. -/
example (b : Backend) : (∀ r ∈ ((engine b true).run 100 [change] db).rows "fan", ¬ Marked fan ((engine b true).run 100 [change] db) r →
      ∀ v, Linked favouritesRel ((engine b true).run 100 [change] db) (r "id") v ↔ v ∈ favourites.fn ((engine b true).run 100 [change] db) r) ∧
    Marked fan ((engine b true).run 100 [change] db) (frow 1 1 10) :=
  ⟨C27_stale_marked_partial (E := engine b true) (cb := best) (f := favourites) (g := favFn) (D := decls true) rfl (wd b)
      (noReentry_of (fun _ => 0) (fun tr htr u hu => by simp [noUpdates b true tr htr] at hu))
      (legalRun_of_all (fun s hs _ => by rw [List.mem_singleton.1 hs]; exact legal_set (by decide) (by decide)) _)
      (by unfold KeysOk; decide) (fun _ _ => rfl) (untouched b true _)
      (fun s hs => by rw [List.mem_singleton.1 hs]; decide)
      (by
        intro r hr v
        have h : ∀ r ∈ db.rows "fan", linked favouritesRel (r "id") db = [.int 10] ∧ favourites.fn db r = [.int 10] ∧ r "id" ≠ .null := by decide
        obtain ⟨h1, h2, h3⟩ := h r hr
        rw [h2, ← h1]
        simp only [linked, List.mem_map, List.mem_filter, Linked, Val.sqlEq_iff]
        constructor
        · rintro ⟨l, e1, e2, e3⟩; exact ⟨l, ⟨e1, e2, e2 ▸ h3⟩, e3⟩
        · rintro ⟨l, ⟨e1, e2, _⟩, e3⟩; exact ⟨l, e1, e2, e3⟩),
    by cases b <;> decide⟩

end Fans

/-! ## Refutations -/

/-- C26 is violated for the key 0 (and for an empty text key): `if instance.pk:` takes it for "no key", so the relation is never set. -/
theorem C26_violated_zero_key (b : Backend) : ∃ (A : App) (om : OrmModel) (f : M2MField) (mem : Row) (db : Db) (p : Db × Row),
    A.engine.backend = b ∧ om.Proper ∧ ProperM2M A.engine om [f] ∧ KeyFree A.engine om ∧ om.Unique db ∧ mem om.model.pk = .int 0 ∧
    A.saveModel om [f] 2 mem db = .ok (some p) ∧ f.fn db mem ≠ [] ∧ ∀ v, ¬ Linked f.rel p.1 (.int 0) v := by
  have hx : (match (Fans.app b true).saveModel (Fans.fanOrm true) [Fans.favourites] 2 (Fans.frow 0 1 0) Fans.db with
      | .ok (some p) => decide (∀ l ∈ p.1.rows "fan_favourites", l "fan_id" ≠ .int 0)
      | _ => false) = true := by cases b <;> decide +kernel
  cases h : (Fans.app b true).saveModel (Fans.fanOrm true) [Fans.favourites] 2 (Fans.frow 0 1 0) Fans.db with
  | error e => rw [h] at hx; simp at hx
  | ok o =>
    cases o with
    | none => rw [h] at hx; simp at hx
    | some p =>
      rw [h] at hx
      refine ⟨Fans.app b true, Fans.fanOrm true, Fans.favourites, Fans.frow 0 1 0, Fans.db, p, rfl, Fans.fanProper true,
        ⟨fun f hf => (Fans.proper b true).each f (by simp at hf; simp [hf]), by decide⟩, Fans.keyFree b true _,
        by unfold OrmModel.Unique; decide, rfl, h, by decide, ?_⟩
      rintro v ⟨l, h1, h2, _⟩
      exact (of_decide_eq_true hx) l h1 h2

/-- C27: the declarations found do not depend on the ManyToManyFields of the models. -/
theorem C27_not_registered (swapped : Model → Bool) (reg : List RegModel) :
    getAlldenorms swapped reg = getAlldenorms swapped (reg.map fun m => { m with m2m := [] }) := by
  induction reg with
  | nil => rfl
  | cons m ms ih => simp only [List.map_cons, getAlldenorms, ih]

/-- C27 is violated. A denormalized ManyToManyField with a dependency, alone in its model: after the related row has changed nothing is
marked, flush() does nothing, and the relation is not what the callback returns. -/
theorem C27_violated (b : Backend) : ∃ (A : App) (reg : List RegModel) (m : RegModel) (fld : RegField) (f : M2MField) (s : Stmt) (db db' : Db) (r : Row),
    A.engine.backend = b ∧ A.engine.triggers = installedTriggers b (getAlldenorms (fun _ => false) reg) ∧
    m ∈ reg ∧ fld ∈ m.m2m ∧ f.rel ∈ m.model.m2ms ∧ f.rel.attname = fld.name ∧ fld.denorm = some Fans.favouritesDenorm ∧
    (∀ r ∈ db.rows m.model.table, linked f.rel (r m.model.pk) db = f.fn db r) ∧ db.dirty = [] ∧
    A.exec s db = .ok db' ∧ (∀ n, A.flush n db' = .ok (some db')) ∧
    r ∈ db'.rows m.model.table ∧ linked f.rel (r m.model.pk) db' ≠ f.fn db' r := by
  have hx : (match (Fans.app b false).exec Fans.change Fans.db with
      | .ok db' => decide (db'.dirty = [] ∧ ∃ r ∈ db'.rows "fan", linked Fans.favouritesRel (r "id") db' ≠ Fans.favourites.fn db' r)
      | _ => false) = true := by cases b <;> decide
  cases h : (Fans.app b false).exec Fans.change Fans.db with
  | error e => rw [h] at hx; simp at hx
  | ok db' =>
    rw [h] at hx
    obtain ⟨h1, r, h2, h3⟩ := of_decide_eq_true hx
    refine ⟨Fans.app b false, Fans.reg false, _, _, Fans.favourites, Fans.change, Fans.db, db', r, rfl, rfl,
      List.mem_cons_of_mem _ (List.mem_singleton.2 rfl), List.mem_singleton.2 rfl, List.mem_singleton.2 rfl, rfl, rfl, by decide, rfl, h,
      fun n => ?_, h2, h3⟩
    cases n <;> simp [App.flush, h1]

end Denorm
