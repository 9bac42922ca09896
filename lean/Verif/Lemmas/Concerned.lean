import Verif.Lemmas.KeyKept
/-!
# A write that does not concern a row leaves its related rows as they are
-/
namespace Denorm

section
variable {E : Engine} {cb : Callback} {fr : Frame} {t : TableName} {db db' : Db} {x : Option (Event × Row × Row)}

theorem sqlEq_symm {a b : Val} (h : Val.sqlEq a b = true) : Val.sqlEq b a = true := by
  rw [Val.sqlEq_iff] at h ⊢
  exact ⟨h.1.symm, fun h0 => h.2 (h.1.trans h0)⟩

theorem concerns_m2m_aux (hG : Ground E cb) (h : WriteOk E cb fr t db db' x) {d : DepRead} (hd : d ∈ cb.deps)
    {tbl : TableName} {c k : Col} (hm : d.dep.m2mTable = some (tbl, c, k)) (hot : d.dep.otherTable = d.dep.other.table) (r : Row)
    (hrel : ∀ o l, l ∈ db'.rows tbl → Val.sqlEq (l c) (r d.dep.this.pk) = true → Val.sqlEq (o d.dep.other.pk) (l k) = true →
      d.dep.relatedTo db' r o) :
    (((db'.rows tbl).filter fun l => Val.sqlEq (l c) (r d.dep.this.pk)).flatMap fun l =>
      seen d.reads ((db'.rows d.dep.other.table).filter fun o => Val.sqlEq (o d.dep.other.pk) (l k))) =
    (((db.rows tbl).filter fun l => Val.sqlEq (l c) (r d.dep.this.pk)).flatMap fun l =>
      seen d.reads ((db.rows d.dep.other.table).filter fun o => Val.sqlEq (o d.dep.other.pk) (l k))) ∨
      ∃ ch ∈ effectChange t x, d.Concerns db' ch r := by
  have hne := hG.through d hd _ _ _ hm
  by_cases ht : tbl = t
  · subst ht
    rw [h.other d.dep.other.table (fun h0 => hne h0.symm)]
    rcases filter_effect h.eff (fun l => Val.sqlEq (l c) (r d.dep.this.pk)) (fun l => seen d.reads
        ((db.rows d.dep.other.table).filter fun o => Val.sqlEq (o d.dep.other.pk) (l k)))
      with he | ⟨n, hx, hp⟩ | ⟨o, hx, hp⟩ | ⟨o, n, hx, hom, hnm, hor, hne'⟩
    · exact .inl he
    · subst hx
      exact .inr ⟨_, List.mem_singleton.2 rfl, .inr ⟨_, _, _, hm, rfl, ⟨n, by simp [Change.versions], hp⟩, by simp⟩⟩
    · subst hx
      exact .inr ⟨_, List.mem_singleton.2 rfl, .inr ⟨_, _, _, hm, rfl, ⟨o, by simp [Change.versions], hp⟩, by simp⟩⟩
    · subst hx
      refine .inr ⟨_, List.mem_singleton.2 rfl, .inr ⟨_, _, _, hm, rfl, ?_, fun _ => ?_⟩⟩
      · rcases hor with hp | hp
        · exact ⟨o, by simp [Change.versions], hp⟩
        · exact ⟨n, by simp [Change.versions], hp⟩
      · by_cases h1 : o c = n c
        · by_cases h2 : o k = n k
          · rcases hne' with hne' | hne'
            · exact absurd (by rw [h1]) hne'
            · exact absurd (by rw [h2]) hne'
          · exact .inr h2
        · exact .inl h1
  · rw [h.other tbl ht]
    by_cases hto : d.dep.other.table = t
    · have hpk : (d.dep.other.table, d.dep.other.pk) ∈ cb.pks :=
        List.mem_cons_of_mem _ (List.mem_map.2 ⟨d, hd, rfl⟩)
      rw [hto] at hpk ⊢
      by_cases hall : ∀ l ∈ (db.rows tbl).filter (fun l => Val.sqlEq (l c) (r d.dep.this.pk)),
          seen d.reads ((db'.rows t).filter fun o => Val.sqlEq (o d.dep.other.pk) (l k)) =
          seen d.reads ((db.rows t).filter fun o => Val.sqlEq (o d.dep.other.pk) (l k))
      · left
        simp only [List.flatMap]
        rw [List.map_congr_left hall]
      · right
        have : ∃ l, l ∈ (db.rows tbl).filter (fun l => Val.sqlEq (l c) (r d.dep.this.pk)) ∧
            ¬ seen d.reads ((db'.rows t).filter fun o => Val.sqlEq (o d.dep.other.pk) (l k)) =
              seen d.reads ((db.rows t).filter fun o => Val.sqlEq (o d.dep.other.pk) (l k)) := by
          apply Classical.byContradiction
          intro hn
          apply hall
          intro l hl
          apply Classical.byContradiction
          intro hne
          exact hn ⟨l, hl, hne⟩
        obtain ⟨l, hlm, hneq⟩ := this
        rw [List.mem_filter] at hlm
        simp only [seen_filter] at hneq
        rcases filter_effect h.eff (fun o => Val.sqlEq (o d.dep.other.pk) (l k)) (fun o => [d.reads.map o])
          with he | ⟨n, hx, hp⟩ | ⟨o, hx, hp⟩ | ⟨o, n, hx, hom, hnm, hor, hne'⟩
        · exact absurd he hneq
        · exact absurd hp (h.insLink _ _ hx d hd hto _ _ _ hm l hlm.1)
        · exact absurd hp (h.delLink _ _ hx d hd hto _ _ _ hm l hlm.1)
        · have hk := h.keep o n hx _ hpk rfl
          simp only at hk
          have hl' : l ∈ db'.rows tbl := by rw [h.other tbl ht]; exact hlm.1
          subst hx
          refine ⟨_, List.mem_singleton.2 rfl, .inl ⟨hot.symm ▸ hto.symm, ?_, fun _ => ?_⟩⟩
          · rcases hor with hp | hp
            · exact ⟨o, by simp [Change.versions], hrel o l hl' hlm.2 hp⟩
            · exact ⟨n, by simp [Change.versions], hrel n l hl' hlm.2 hp⟩
          · rcases hne' with hne' | hne'
            · exact absurd (by rw [hk]) hne'
            · obtain ⟨c', hc', hcn⟩ := changedCols_iff.1 (map_ne hne')
              exact ⟨c', List.mem_append_right _ hc', hcn⟩
    · left; rw [h.other _ hto]

/-- What a row sees through a dependency changes only if the write concerns it. -/
theorem related_concerns (hG : Ground E cb) (h : WriteOk E cb fr t db db' x) {d : DepRead} (hd : d ∈ cb.deps)
    (hg : ∀ g, d.dep.rel ≠ .backwardM2M (.generic g)) (r : Row) :
    seen d.reads (relatedRows d.dep db' r) = seen d.reads (relatedRows d.dep db r) ∨
      ∃ ch ∈ effectChange t x, d.Concerns db' ch r := by
  rcases hf : d.dep.rel with f | f | (m | g) | (m | g)
  · simp only [relatedRows, hf, seen_filter]
    by_cases ht : d.dep.other.table = t
    · rw [ht]
      have hpk : (d.dep.other.table, d.dep.other.pk) ∈ cb.pks :=
        List.mem_cons_of_mem _ (List.mem_map.2 ⟨d, hd, rfl⟩)
      rw [ht] at hpk
      have hot : t = d.dep.otherTable := by simp [Dep.otherTable, hf, ht]
      have hrel : ∀ o : Row, Val.sqlEq (o d.dep.other.pk) (r f.column) = true → d.dep.relatedTo db' r o := by
        intro o ho
        simp only [Dep.relatedTo, hf]
        exact sqlEq_symm ho
      rcases filter_effect h.eff (fun o => Val.sqlEq (o d.dep.other.pk) (r f.column)) (fun o => [d.reads.map o])
        with he | ⟨n, hx, hp⟩ | ⟨o, hx, hp⟩ | ⟨o, n, hx, _, _, hor, hne⟩
      · exact .inl he
      · subst hx
        exact .inr ⟨_, List.mem_singleton.2 rfl, .inl ⟨hot, ⟨n, by simp [Change.versions], hrel n hp⟩, by simp⟩⟩
      · subst hx
        exact .inr ⟨_, List.mem_singleton.2 rfl, .inl ⟨hot, ⟨o, by simp [Change.versions], hrel o hp⟩, by simp⟩⟩
      · have hk := h.keep o n hx _ hpk rfl
        simp only at hk
        subst hx
        refine .inr ⟨_, List.mem_singleton.2 rfl, .inl ⟨hot, ?_, fun _ => ?_⟩⟩
        · rcases hor with hp | hp
          · exact ⟨o, by simp [Change.versions], hrel o hp⟩
          · exact ⟨n, by simp [Change.versions], hrel n hp⟩
        · rcases hne with hne | hne
          · exact absurd (by rw [hk]) hne
          · obtain ⟨c, hc, hcn⟩ := changedCols_iff.1 (map_ne hne)
            exact ⟨c, List.mem_append_right _ hc, hcn⟩
    · left; rw [h.other _ ht]
  · simp only [relatedRows, hf, seen_filter]
    by_cases ht : d.dep.other.table = t
    · rw [ht]
      have hot : t = d.dep.otherTable := by simp [Dep.otherTable, hf, ht]
      have hrel : ∀ o : Row, Val.sqlEq (o f.column) (r d.dep.this.pk) = true → d.dep.relatedTo db' r o := by
        intro o ho
        simp only [Dep.relatedTo, hf]
        exact ho
      rcases filter_effect h.eff (fun o => Val.sqlEq (o f.column) (r d.dep.this.pk)) (fun o => [d.reads.map o])
        with he | ⟨n, hx, hp⟩ | ⟨o, hx, hp⟩ | ⟨o, n, hx, _, _, hor, hne⟩
      · exact .inl he
      · subst hx
        exact .inr ⟨_, List.mem_singleton.2 rfl, .inl ⟨hot, ⟨n, by simp [Change.versions], hrel n hp⟩, by simp⟩⟩
      · subst hx
        exact .inr ⟨_, List.mem_singleton.2 rfl, .inl ⟨hot, ⟨o, by simp [Change.versions], hrel o hp⟩, by simp⟩⟩
      · subst hx
        refine .inr ⟨_, List.mem_singleton.2 rfl, .inl ⟨hot, ?_, fun _ => ?_⟩⟩
        · rcases hor with hp | hp
          · exact ⟨o, by simp [Change.versions], hrel o hp⟩
          · exact ⟨n, by simp [Change.versions], hrel n hp⟩
        · rcases hne with hne | hne
          · exact ⟨f.column, List.mem_append_left _ (by simp [Dep.relCols, hf]), fun h0 => hne (by simp only at h0; rw [h0])⟩
          · obtain ⟨c, hc, hcn⟩ := changedCols_iff.1 (map_ne hne)
            exact ⟨c, List.mem_append_right _ hc, hcn⟩
    · left; rw [h.other _ ht]
  · have := concerns_m2m_aux hG h hd (tbl := m.through) (c := m.colName) (k := m.revName) (by simp [Dep.m2mTable, hf])
      (by simp [Dep.otherTable, hf]) r (by
        intro o l hl h1 h2
        simp only [Dep.relatedTo, hf]
        exact ⟨l, hl, h1, sqlEq_symm h2⟩)
    simpa only [relatedRows, hf, seen_flatMap] using this
  · simp only [relatedRows, hf, seen_filter]
    by_cases ht : g.remoteTable = t
    · rw [ht]
      have hot : t = d.dep.otherTable := by simp [Dep.otherTable, hf, ht]
      have hrel : ∀ o : Row, (Val.sqlEq (o (g.ctFieldName ++ "_id")) (.int d.dep.this.ct) &&
          Val.sqlEq (o g.objectIdField) (r d.dep.this.pk)) = true → d.dep.relatedTo db' r o := by
        intro o ho
        rw [Bool.and_eq_true] at ho
        simp only [Dep.relatedTo, hf]
        exact ho
      rcases filter_effect h.eff _ (fun o => [d.reads.map o])
        with he | ⟨n, hx, hp⟩ | ⟨o, hx, hp⟩ | ⟨o, n, hx, _, _, hor, hne⟩
      · exact .inl he
      · subst hx
        exact .inr ⟨_, List.mem_singleton.2 rfl, .inl ⟨hot, ⟨n, by simp [Change.versions], hrel n hp⟩, by simp⟩⟩
      · subst hx
        exact .inr ⟨_, List.mem_singleton.2 rfl, .inl ⟨hot, ⟨o, by simp [Change.versions], hrel o hp⟩, by simp⟩⟩
      · subst hx
        refine .inr ⟨_, List.mem_singleton.2 rfl, .inl ⟨hot, ?_, fun _ => ?_⟩⟩
        · rcases hor with hp | hp
          · exact ⟨o, by simp [Change.versions], hrel o hp⟩
          · exact ⟨n, by simp [Change.versions], hrel n hp⟩
        · simp only [Dep.relCols, hf]
          rcases hne with hne | hne
          · by_cases h1 : o (g.ctFieldName ++ "_id") = n (g.ctFieldName ++ "_id")
            · by_cases h2 : o g.objectIdField = n g.objectIdField
              · exact absurd (by rw [h1, h2]) hne
              · exact ⟨g.objectIdField, by simp, h2⟩
            · exact ⟨g.ctFieldName ++ "_id", by simp, h1⟩
          · obtain ⟨c, hc, hcn⟩ := changedCols_iff.1 (map_ne hne)
            exact ⟨c, List.mem_append_right _ hc, hcn⟩
    · left; rw [h.other _ ht]
  · have := concerns_m2m_aux hG h hd (tbl := m.through) (c := m.revName) (k := m.colName) (by simp [Dep.m2mTable, hf])
      (by simp [Dep.otherTable, hf]) r (by
        intro o l hl h1 h2
        simp only [Dep.relatedTo, hf]
        exact ⟨l, hl, h1, sqlEq_symm h2⟩)
    simpa only [relatedRows, hf, seen_flatMap] using this
  · exact absurd hf (hg g)
end

/-! ## What stays true of an instance that nothing concerns -/

/-- Something about the row of an instance that depends only on its key, its own columns and what it sees. -/
def SeenProp (k : KeyField) (own : List Col) (G : Db → Row → Prop) : Prop :=
  ∀ db db' r r', r' k.model.pk = r k.model.pk → (∀ c, c ∈ own ∨ c ∈ k.fks → r' c = r c) →
    (∀ d ∈ k.deps, seen d.reads (relatedRows d.dep db' r') = seen d.reads (relatedRows d.dep db r)) → G db r → G db' r'

/-- No row of instance `v` is concerned. -/
def Unconcerned (k : KeyField) (v : Val) (ch : Change) (db : Db) : Prop :=
  ∀ r ∈ db.rows k.model.table, r k.model.pk = v → ∀ d ∈ k.deps, ¬ d.Concerns db ch r

/-- The statement leaves the key, the ForeignKeys and the read columns of the model alone; rows it inserts with key `v` are as wanted. -/
def CalmStmt (k : KeyField) (own : List Col) (v : Val) (G : Db → Row → Prop) (K : Val → Prop) : Stmt → Prop
  | .insert t rs => t = k.model.table → ∀ r ∈ rs, r k.model.pk = v → (∀ db, G db r) ∧ K (r k.field)
  | .update t _ σ => t = k.model.table → ∀ x r, σ x r k.field = r k.field ∧ ∀ c, c ∈ own ∨ c ∈ k.fks → σ x r c = r c
  | .delete _ _ => True

/-- The key is one of `K` or was drawn since `start`. -/
def KeyKnown (E : Engine) (K : Val → Prop) (start stop : Nat) (κ : Val) : Prop :=
  K κ ∨ ∃ n, start ≤ n ∧ n < stop ∧ κ = .int (E.rand n)

theorem KeyKnown.mono {E : Engine} {K : Val → Prop} {start stop stop' : Nat} {κ : Val} (h : KeyKnown E K start stop κ) (hs : stop ≤ stop') :
    KeyKnown E K start stop' κ := by
  rcases h with h | ⟨n, h1, h2, h3⟩
  · exact .inl h
  · exact .inr ⟨n, h1, by omega, h3⟩

structure HoldInv (E : Engine) (k : KeyField) (own : List Col) (rank : String → Nat) (s : Stmt) (v : Val) (G : Db → Row → Prop)
    (K : Val → Prop) (start : Nat) (ops : List RowOp) (W : List Item) (db : Db) : Prop where
  base : KeyBase E k rank s ops W db
  le : start ≤ db.draws
  holds : ∀ r ∈ db.rows k.model.table, r k.model.pk = v → G db r ∧ KeyKnown E K start db.draws (r k.field)
  calm : CalmStmt k own v G K s ∨ ops = []

/-- Before a statement that writes a single row. -/
structure PreInv (E : Engine) (k : KeyField) (rank : String → Nat) (s : Stmt) (v : Val) (G : Db → Row → Prop)
    (K : Val → Prop) (start : Nat) (ops : List RowOp) (W : List Item) (db : Db) : Prop where
  base : KeyBase E k rank s ops W db
  le : start ≤ db.draws
  none : W = []
  one : ∃ op, ops = [op] ∧ ∀ r' ∈ (applyOp E s.table op db).1.rows k.model.table, r' k.model.pk = v → G db r' ∧ K (r' k.field)

section
variable {E : Engine} {k : KeyField} {own : List Col} {rank : String → Nat} {s : Stmt} {v : Val} {G : Db → Row → Prop} {K : Val → Prop}
  {start : Nat}

theorem applyOp_draws (E : Engine) (t : TableName) (op : RowOp) (db : Db) : db.draws ≤ (applyOp E t op db).1.draws := by
  cases op with
  | ins r => exact Nat.le_refl _
  | upd i σ =>
    simp only [applyOp]
    split
    · exact Nat.le_refl _
    · exact Nat.le_succ _
  | del w =>
    simp only [applyOp]
    split <;> exact Nat.le_refl _

theorem random_set {u : UpdAction} (h : u.expr = .random) (ch : Change) (db : Db) (x : Int) (r : Row) : u.set ch db x r u.col = .int x := by
  simp [UpdAction.set, Row.set, h, SetExpr.eval]

/-- One row write. -/
theorem holds_step (hT : KeyTracks E k) (hG : SeenProp k own G) (hg : ∀ d ∈ k.deps, ∀ g, d.dep.rel ≠ .backwardM2M (.generic g))
    {fr : Frame} {t : TableName} {db db' : Db} {x : Option (Event × Row × Row)} (hw : WriteOk E k.relations fr t db db' x)
    (hQ : ∀ ch ∈ effectChange t x, Unconcerned k v ch db') {r' : Row} (hr' : r' ∈ db'.rows k.model.table) (hv : r' k.model.pk = v)
    (h : G db r') : G db' r' := by
  refine hG db db' r' r' rfl (fun _ _ => rfl) (fun d hd => ?_) h
  rcases related_concerns hT.toGround hw hd (hg d hd) r' with h1 | ⟨ch, hch, hc⟩
  · exact h1
  · exact absurd hc (hQ ch hch r' hr' hv d hd)

theorem related_same (hT : KeyTracks E k) (hg : ∀ d ∈ k.deps, ∀ g, d.dep.rel ≠ .backwardM2M (.generic g)) {db : Db} {r r' : Row}
    (hpk : r' k.model.pk = r k.model.pk) (hk : ∀ c ∈ k.fks, r' c = r c) :
    ∀ d ∈ k.deps, relatedRows d.dep db r' = relatedRows d.dep db r := by
  intro d hd
  refine related_congr (hg d hd) ?_ (fun c hc => ?_) db
  · have : d.dep.this = k.model := hT.this d hd
    rw [this]; exact hpk
  · exact hk c (List.mem_flatMap.2 ⟨d, hd, hc⟩)

theorem holdInv (hT : KeyTracks E k) (hR : Ranked E rank) (hG : SeenProp k own G)
    (hg : ∀ d ∈ k.deps, ∀ g, d.dep.rel ≠ .backwardM2M (.generic g)) (hown : ∀ c ∈ own, ¬ Managed E k.model.table c) :
    PhaseInvQ E (Unconcerned k v) s.table (HoldInv E k own rank s v G K start) where
  nested := fun rest => {
    perm := fun hp h => ⟨((keyBase hT hR).nested rest).perm hp h.base, h.le, h.holds, h.calm⟩
    writeNil := fun h => ⟨((keyBase hT hR).nested rest).writeNil h.base, h.le, h.holds, h.calm⟩
    writeOp := by
      intro fr t op ops W db hQ h
      have hb := ((keyBase (s := s) hT hR).nested rest).writeOp (fun _ _ => trivial) h.base
      have hle := applyOp_draws E t op db
      have hn := h.base.items _ (List.mem_cons_self ..)
      have hit : ItemOk E rank s _ := hn.itemOk
      obtain ⟨x, hw, hch⟩ := writeOk_of hT.toGround h.base.legal h.base.keys hit
      refine ⟨hb, Nat.le_trans h.le hle, fun r' hr' hv => ?_, h.calm⟩
      rw [hch] at hQ
      have key : G db r' ∧ KeyKnown E K start (applyOp E t op db).1.draws (r' k.field) := by
        obtain ⟨tr, htr, u, ch0, dbu, hu, hut, hops, _⟩ := hn
        obtain ⟨i, hop⟩ := hops op (List.mem_cons_self ..)
        have hman : Managed E t u.col := ⟨tr, htr, u, hu, hut, rfl⟩
        by_cases ht : t = k.model.table
        · subst ht
          cases hrow : (db.rows k.model.table)[i]? with
          | none =>
            have hap : applyOp E k.model.table op db = (db, []) := by simp only [hop, applyOp, hrow]
            rw [hap] at hr' ⊢
            exact h.holds r' hr' hv
          | some old =>
            have hap : applyOp E k.model.table op db =
                ({ db.setRows k.model.table ((db.rows k.model.table).set i (u.set ch0 dbu (E.rand db.draws) old)) with draws := db.draws + 1 },
                  [⟨k.model.table, .update, old, u.set ch0 dbu (E.rand db.draws) old⟩]) := by simp only [hop, applyOp, hrow]
            rw [hap] at hr' ⊢
            simp only [Db.setRows_same] at hr' ⊢
            rcases List.mem_or_eq_of_mem_set hr' with hr' | rfl
            · obtain ⟨h1, h2⟩ := h.holds r' hr' hv
              exact ⟨h1, h2.mono (Nat.le_succ _)⟩
            · have hpk : k.model.pk ≠ u.col := fun e =>
                hT.pks (k.model.table, k.model.pk) (List.mem_cons_self ..) (e ▸ hman)
              have hoth : ∀ c, c ≠ u.col → u.set ch0 dbu (E.rand db.draws) old c = old c := fun c hc => UpdAction.set_other _ _ _ _ _ _ hc
              rw [hoth _ hpk] at hv
              obtain ⟨h1, h2⟩ := h.holds old (List.mem_of_getElem? hrow) hv
              have hfk : ∀ c ∈ k.fks, u.set ch0 dbu (E.rand db.draws) old c = old c :=
                fun c hc => hoth c fun e => hT.fks c hc (e ▸ hman)
              refine ⟨hG db db old _ (hoth _ hpk) (fun c hc => ?_) (fun d hd => by rw [related_same hT hg (hoth _ hpk) hfk d hd]) h1, ?_⟩
              · rcases hc with hc | hc
                · exact hoth c fun e => hown c hc (e ▸ hman)
                · exact hfk c hc
              · by_cases hf : u.col = k.field
                · have := hT.random tr htr u hu hut hf
                  refine .inr ⟨db.draws, h.le, Nat.lt_succ_self _, ?_⟩
                  rw [← hf]; exact random_set this _ _ _ _
                · rw [hoth _ fun e => hf e.symm]
                  exact h2.mono (Nat.le_succ _)
        · rw [applyOp_rows_other E op db (fun e => ht e.symm)] at hr'
          obtain ⟨h1, h2⟩ := h.holds r' hr' hv
          exact ⟨h1, h2.mono hle⟩
      exact ⟨holds_step hT hG hg hw hQ hr' hv key.1, key.2⟩
    markValues := fun h => ⟨((keyBase hT hR).nested rest).markValues h.base, h.le,
      fun r hr hv => ⟨hG _ _ r r rfl (fun _ _ => rfl) (fun d _ => by rw [related_rows (Db.addMarks_rows ..)]) (h.holds r hr hv).1, (h.holds r hr hv).2⟩, h.calm⟩
    markSelect := fun h => ⟨((keyBase hT hR).nested rest).markSelect h.base, h.le,
      fun r hr hv => ⟨hG _ _ r r rfl (fun _ _ => rfl) (fun d _ => by rw [related_rows (Db.addMarks_rows ..)]) (h.holds r hr hv).1, (h.holds r hr hv).2⟩, h.calm⟩
    update := fun hmy h => ⟨((keyBase hT hR).nested rest).update hmy h.base, h.le, h.holds, h.calm⟩ }
  top := by
    intro op ops W db hW hQ h
    have hb := (keyBase (s := s) hT hR).top hW (fun _ _ => trivial) h.base
    have hle := applyOp_draws E s.table op db
    have hit : ItemOk E rank s (.write .top s.table (op :: ops)) := topItem h.base.tops
    obtain ⟨x, hw, hch⟩ := writeOk_of hT.toGround h.base.legal h.base.keys hit
    rw [hch] at hQ
    have hcalm : CalmStmt k own v G K s := by
      rcases h.calm with h1 | h1
      · exact h1
      · simp at h1
    refine ⟨hb, Nat.le_trans h.le hle, fun r' hr' hv => ?_, .inl hcalm⟩
    have key : G db r' ∧ KeyKnown E K start (applyOp E s.table op db).1.draws (r' k.field) := by
      by_cases ht : s.table = k.model.table
      · have htop := h.base.tops op (List.mem_cons_self ..)
        rw [← ht] at hr'
        obtain ⟨y, hy1, hy2, hyu, hyi, _⟩ := applyOp_effect E s.table op db
        rcases effect_mem hy1 hr' with h1 | hx | ⟨o, ho, hx⟩
        · obtain ⟨h2, h3⟩ := h.holds r' (ht ▸ h1) hv
          exact ⟨h2, h3.mono hle⟩
        · have hop := hyi _ _ hx
          subst hop
          cases s with
          | insert t rs =>
            obtain ⟨r, hr, e⟩ := htop
            simp only [RowOp.ins.injEq] at e
            subst e
            obtain ⟨h1, h2⟩ := hcalm ht r' hr hv
            exact ⟨h1 db, .inl h2⟩
          | update t w σ => obtain ⟨i, e⟩ := htop; simp at e
          | delete t w => simp [TopOp] at htop
        · obtain ⟨i, σ, hop, hn⟩ := hyu _ _ hx
          subst hop
          cases s with
          | insert t rs => obtain ⟨r, hr, e⟩ := htop; simp at e
          | delete t w => simp [TopOp] at htop
          | update t w σ' =>
            obtain ⟨i', e⟩ := htop
            simp only [RowOp.upd.injEq] at e
            obtain ⟨_, rfl⟩ := e
            obtain ⟨h1, h2⟩ := hcalm ht (E.rand db.draws) o
            have hpk : r' k.model.pk = o k.model.pk := by
              have hx' : x = some (.update, o, r') := by
                rw [hch, hx] at hy2
                rcases x with _ | ⟨e, a, b⟩
                · simp [effectChange] at hy2
                · simp only [effectChange, List.cons.injEq, Change.mk.injEq, and_true, true_and] at hy2
                  obtain ⟨rfl, rfl, rfl⟩ := hy2
                  rfl
              exact hw.keep _ _ hx' (k.model.table, k.model.pk) (List.mem_cons_self ..) ht.symm
            rw [hpk] at hv
            obtain ⟨h3, h4⟩ := h.holds o (ht ▸ ho) hv
            rw [hn] at hpk ⊢
            refine ⟨hG db db o _ hpk (fun c hc => h2 c hc) (fun d hd => by rw [related_same hT hg hpk (fun c hc => h2 c (.inr hc)) d hd]) h3, ?_⟩
            rw [h1]
            exact h4.mono hle
      · rw [applyOp_rows_other E op db (fun e => ht e.symm)] at hr'
        obtain ⟨h1, h2⟩ := h.holds r' hr' hv
        exact ⟨h1, h2.mono hle⟩
    exact ⟨holds_step hT hG hg hw hQ hr' hv key.1, key.2⟩

/-- The same for a statement that writes a single row. -/
theorem preInv (hT : KeyTracks E k) (hR : Ranked E rank) (hG : SeenProp k own G)
    (hg : ∀ d ∈ k.deps, ∀ g, d.dep.rel ≠ .backwardM2M (.generic g)) (hown : ∀ c ∈ own, ¬ Managed E k.model.table c) :
    PhaseInvQ E (Unconcerned k v) s.table
      (fun ops W db => PreInv E k rank s v G K start ops W db ∨ HoldInv E k own rank s v G K start ops W db) where
  nested := fun rest =>
    have H := (holdInv (v := v) (K := K) (start := start) hT hR hG hg hown (s := s)).nested rest
    { perm := by
        rintro W W' db hp (h | h)
        · left
          have hW := h.none
          subst hW
          have := hp.nil_eq
          subst this
          exact h
        · exact .inr (H.perm hp h)
      writeNil := by
        rintro fr t W db (h | h)
        · exact absurd h.none (by simp)
        · exact .inr (H.writeNil h)
      writeOp := by
        rintro fr t op ops W db hQ (h | h)
        · exact absurd h.none (by simp)
        · exact .inr (H.writeOp hQ h)
      markValues := by
        rintro fr ch ct s c q W db (h | h)
        · exact absurd h.none (by simp)
        · exact .inr (H.markValues h)
      markSelect := by
        rintro fr ch ct sel t k s c q W db (h | h)
        · exact absurd h.none (by simp)
        · exact .inr (H.markSelect h)
      update := by
        rintro fr ch u W db hmy (h | h)
        · exact absurd h.none (by simp)
        · exact .inr (H.update hmy h) }
  top := by
    rintro op ops W db hW hQ (h | h)
    · right
      obtain ⟨op', he, ho⟩ := h.one
      simp only [List.cons.injEq] at he
      obtain ⟨rfl, rfl⟩ := he
      have hb := (keyBase (s := s) hT hR).top hW (fun _ _ => trivial) h.base
      have hit : ItemOk E rank s (.write .top s.table [op]) := topItem h.base.tops
      obtain ⟨x, hw, hch⟩ := writeOk_of hT.toGround h.base.legal h.base.keys hit
      rw [hch] at hQ
      refine ⟨hb, Nat.le_trans h.le (applyOp_draws ..), fun r' hr' hv => ?_, .inr rfl⟩
      obtain ⟨h1, h2⟩ := ho r' hr' hv
      exact ⟨holds_step hT hG hg hw hQ hr' hv h1, .inl h2⟩
    · exact .inr ((holdInv hT hR hG hg hown).top hW hQ h)

end

end Denorm
