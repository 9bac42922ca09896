import Verif.Lemmas.Transactions
/-!
# What a callback sees, with the identity of the rows
-/
namespace Denorm

/-- The write leaves the key alone. -/
def KeyKept (S : Schema) (t : TableName) (x : Option (Event × Row × Row)) : Prop :=
  ∀ o n, x = some (.update, o, n) → n (S.key t) = o (S.key t)

theorem changed_of_key {S : Schema} {t : TableName} {x : Option (Event × Row × Row)} (hk : KeyKept S t x) {reads : List Col} {o n : Row}
    (hx : x = some (.update, o, n)) (h : changedCols (S.key t :: reads) o n = true) : changedCols reads o n = true := by
  obtain ⟨c, hc, hne⟩ := changedCols_iff.1 h
  rcases List.mem_cons.1 hc with rfl | hc
  · exact absurd (hk o n hx).symm hne
  · exact changedCols_iff.2 ⟨c, hc, hne⟩

theorem keyedView_none {S : Schema} {d : DepRead} (h : d.dep.m2mTable = none) (db : Db) (r : Row) :
    keyedView S d db r = [((.null, .null), seen (S.key d.dep.otherTable :: d.reads) (relatedRows d.dep db r))] := by
  simp [keyedView, h]

theorem keyedView_some {S : Schema} {d : DepRead} {tbl : TableName} {c k : Col} (h : d.dep.m2mTable = some (tbl, c, k)) (db : Db) (r : Row) :
    keyedView S d db r = ((db.rows tbl).filter fun l => Val.sqlEq (l c) (r d.dep.this.pk)).flatMap fun l =>
      [((l (S.key tbl), l k), seen (S.key d.dep.other.table :: d.reads)
        ((db.rows d.dep.other.table).filter fun o => Val.sqlEq (o d.dep.other.pk) (l k)))] := by
  simp [keyedView, h]

theorem keyed_step {E : Engine} {cb : Callback} {S : Schema} (hT : Tracks E cb) {fr : Frame} {t : TableName} {db db' : Db}
    {x : Option (Event × Row × Row)} (h : WriteOk E cb fr t db db' x) (hk : KeyKept S t x) {d : DepRead} (hd : d ∈ cb.deps) (r : Row) :
    keyedView S d db' r = keyedView S d db r ∨ ∃ it ∈ newActs E fr t x, Covers cb db' r it := by
  have htr := hT.deps d hd
  have hcols : d.dep.otherTable = t → ∀ o n, x = some (.update, o, n) → changedCols (S.key d.dep.otherTable :: d.reads) o n = true →
      changedCols d.reads o n = true := by
    intro ht o n hx hc
    rw [ht] at hc
    exact changed_of_key hk hx hc
  have hH : ∀ {tbl : TableName} {c k : Col}, tbl = t → ∀ o n : Row, x = some (.update, o, n) → o c = n c → o k = n k →
      (fun s : List (List Val) => [((o (S.key tbl), o k), s)]) = fun s => [((n (S.key tbl), n k), s)] := by
    intro tbl c k ht o n hx _ h2
    have := hk o n hx
    rw [ht, h2, this]
  rcases hf : d.dep.rel with f | f | (m | g) | (m | g)
  · have hm : d.dep.m2mTable = none := by simp [Dep.m2mTable, hf]
    rw [keyedView_none hm, keyedView_none hm]
    rcases related_forward hT h hd hf r hcols with h1 | h1
    · exact .inl (by rw [h1])
    · exact .inr h1
  · have hm : d.dep.m2mTable = none := by simp [Dep.m2mTable, hf]
    rw [keyedView_none hm, keyedView_none hm]
    rcases related_backward hT h hd hf r hcols with h1 | h1
    · exact .inl (by rw [h1])
    · exact .inr h1
  · simp only [DepTracks, hf] at htr
    obtain ⟨t1, t2, t3, t4, t5⟩ := htr
    have hm : d.dep.m2mTable = some (m.through, m.colName, m.revName) := by simp [Dep.m2mTable, hf]
    have ho : d.dep.otherTable = d.dep.other.table := by simp [Dep.otherTable, hf]
    rw [ho] at hcols
    rw [keyedView_some hm, keyedView_some hm]
    exact related_m2m_aux (w := [m.colName, m.revName]) hT h hd hm (by simp [Dep.links, hf]) (by simp) t1 t2 t3 t4 t5 r hcols
      (fun l s => [((l (S.key m.through), l m.revName), s)]) (hH (c := m.colName))
  · have hm : d.dep.m2mTable = none := by simp [Dep.m2mTable, hf]
    rw [keyedView_none hm, keyedView_none hm]
    rcases related_generic hT h hd hf r hcols with h1 | h1
    · exact .inl (by rw [h1])
    · exact .inr h1
  · simp only [DepTracks, hf] at htr
    obtain ⟨t1, t2, t3, t4, t5⟩ := htr
    have hm : d.dep.m2mTable = some (m.through, m.revName, m.colName) := by simp [Dep.m2mTable, hf]
    have ho : d.dep.otherTable = d.dep.other.table := by simp [Dep.otherTable, hf]
    rw [ho] at hcols
    rw [keyedView_some hm, keyedView_some hm]
    exact related_m2m_aux (w := [m.colName, m.revName]) hT h hd hm (by simp [Dep.links, hf]) (by simp) t1 t2 t3 t4 t5 r hcols
      (fun l s => [((l (S.key m.through), l m.colName), s)]) (hH (c := m.revName))
  · simp [DepTracks, hf] at htr

theorem keyedView_rows {S : Schema} {d : DepRead} {db db' : Db} (h : db'.rows = db.rows) (r : Row) : keyedView S d db' r = keyedView S d db r := by
  simp only [keyedView, h, related_rows h]

theorem keyedView_congr {S : Schema} {d : DepRead} (hg : ∀ g, d.dep.rel ≠ .backwardM2M (.generic g)) {r r' : Row}
    (hpk : r d.dep.this.pk = r' d.dep.this.pk) (hk : ∀ c ∈ d.dep.ownKeys, r c = r' c) (db : Db) :
    keyedView S d db r = keyedView S d db r' := by
  simp only [keyedView, related_congr hg hpk hk db, hpk]

theorem ownKeys_own {cb : Callback} {d : DepRead} (hd : d ∈ cb.deps) {c : Col} (hc : c ∈ d.dep.ownKeys) : c ∈ cb.ownCols := by
  simp only [Callback.ownCols, List.cons_append, List.mem_cons, List.mem_append, List.mem_flatMap]
  exact .inr (.inr ⟨d, hd, hc⟩)

theorem viewed_keyed {E : Engine} {cb : Callback} (S : Schema) (hT : Tracks E cb) : Viewed E cb (KeyKept S) (cb.keyed S) where
  rows db db' r hr := by simp only [Callback.keyed, keyedView_rows hr]
  congr db r r' hpk hown := by
    refine List.map_congr_left fun d hd => ?_
    exact keyedView_congr (hT.notBackGeneric hd) (by rw [hT.this d hd]; exact hpk) (fun c hc => hown c (ownKeys_own hd hc)) db
  step {fr t db db' x} r hw hk := by
    by_cases hall : ∀ d ∈ cb.deps, keyedView S d db' r = keyedView S d db r
    · exact .inl (List.map_congr_left hall)
    · right
      have : ∃ d, d ∈ cb.deps ∧ ¬ keyedView S d db' r = keyedView S d db r := by
        apply Classical.byContradiction
        intro hn
        apply hall
        intro d hd
        apply Classical.byContradiction
        exact fun hne => hn ⟨d, hd, hne⟩
      obtain ⟨d, hd, hne⟩ := this
      rcases keyed_step hT hw hk hd r with h5 | h5
      · exact absurd h5 hne
      · exact h5

theorem effectChange_inj {t : TableName} {x y : Option (Event × Row × Row)} (h : effectChange t x = effectChange t y) : x = y := by
  rcases x with _ | ⟨e, o, n⟩ <;> rcases y with _ | ⟨e', o', n'⟩ <;> simp_all [effectChange]

/-- Statements that leave keys alone, in a database whose triggers do, leave them alone in every single write. -/
theorem keyKept_of {E : Engine} {S : Schema} {rank : String → Nat} {s : Stmt} {db0 : Db} (hs : KeepsKeys S db0 s) (hm : ∀ t, ¬ Managed E t (S.key t))
    {fr : Frame} {t : TableName} {op : RowOp} {ops : List RowOp} {db : Db} {x : Option (Event × Row × Row)}
    (h : ItemOk E rank s (.write fr t (op :: ops))) (hch : (applyOp E t op db).2 = effectChange t x) : KeyKept S t x := by
  obtain ⟨x', _, hch', hupd, hins, hdel⟩ := applyOp_effect E t op db
  have : x = x' := effectChange_inj (hch.symm.trans hch')
  subst this
  intro o n hx
  rcases write_facts h hupd hins hdel with ⟨h1, _, h3⟩ | ⟨col, hmc, hxs, _⟩
  · obtain ⟨i, σ, hop, hn⟩ := hupd o n hx
    cases s with
    | update t' w σ' =>
      obtain ⟨j, hj⟩ := h3
      rw [hop] at hj
      simp only [RowOp.upd.injEq] at hj
      rw [hn, hj.2, h1]
      exact hs _ _
    | insert t' rs => obtain ⟨r, _, hr⟩ := h3; rw [hop] at hr; exact absurd hr (by simp)
    | delete t' w => rw [TopOp, hop] at h3; exact absurd h3 (by simp)
  · refine (hxs _ _ _ hx).2 _ ?_
    intro hc
    exact hm t (hc ▸ hmc)

/-- One statement: rows that are not marked afterwards satisfy `C` if all unmarked ones did before. -/
theorem keyed_exec {E : Engine} {cb : Callback} {S : Schema} (hT : Tracks E cb) (hN : NoReentry E) {C : Db → Row → Prop}
    (hC : TrackedBy cb (cb.keyed S) C) {fuel : Nat} {s : Stmt} {db db' : Db} (he : E.exec fuel s db = .ok db')
    (hL : LegalStmt E cb db s) {db0 : Db} (hs : KeepsKeys S db0 s) (hm : ∀ t, ¬ Managed E t (S.key t)) (hK : KeysOk cb db)
    (hg : ∀ r ∈ db.rows cb.model.table, Marked cb.model db r ∨ C db r) :
    KeysOk cb db' ∧ ∀ r ∈ db'.rows cb.model.table, Marked cb.model db' r ∨ C db' r := by
  obtain ⟨rank, hR⟩ := hN.ranked
  have := (trackInvBy E cb hT rank hR s (viewed_keyed S hT) (fun h hch => keyKept_of hs hm h hch) C hC).exec he
    ⟨hL, hK, itemOk_start E rank s db, fun r hr => (hg r hr).imp id .inr⟩
  refine ⟨this.keys, fun r hr => ?_⟩
  rcases this.good r hr with h1 | ⟨it, h2, _⟩ | h4
  · exact .inl h1
  · simp at h2
  · exact .inr h4

/-! ## Keys stay unique -/

/-- The keys that are still to be inserted into table `t`. -/
def insKeys (S : Schema) (t : TableName) : Item → List Val
  | .write _ t' ops => if t' = t then ops.filterMap fun op => match op with
      | .ins r => some (r (S.key t))
      | _ => none
    else []
  | .act .. => []

theorem insKeys_upd {S : Schema} {t t' : TableName} {fr : Frame} {ops : List RowOp} (h : ∀ op ∈ ops, ∃ i σ, op = .upd i σ) :
    insKeys S t (.write fr t' ops) = [] := by
  simp only [insKeys]
  split
  · rw [List.filterMap_eq_nil_iff]
    intro op ho
    obtain ⟨i, σ, rfl⟩ := h op ho
    rfl
  · rfl

theorem keysInv {E : Engine} {S : Schema} {rank : String → Nat} (hR : Ranked E rank) {s : Stmt} {db0 : Db} (hs : KeepsKeys S db0 s)
    (hm : ∀ t, ¬ Managed E t (S.key t)) : StepInv E fun W db => (∀ it ∈ W, ItemOk E rank s it) ∧
      ∀ t, (((db.rows t).map fun r => r (S.key t)) ++ W.flatMap (insKeys S t)).Nodup where
  perm := by
    rintro W W' db hp ⟨h1, h2⟩
    exact ⟨fun it hit => h1 it (hp.mem_iff.2 hit), fun t => ((hp.flatMap_right _).append_left _).nodup_iff.1 (h2 t)⟩
  writeNil := by
    rintro fr t W db ⟨h1, h2⟩
    refine ⟨fun it hit => h1 it (List.mem_cons_of_mem _ hit), fun t' => ?_⟩
    have := h2 t'
    simpa [insKeys] using this
  writeOp := by
    rintro fr t op ops W db ⟨h1, h2⟩
    have hit := h1 _ (List.mem_cons_self ..)
    refine ⟨?_, fun t' => ?_⟩
    · intro it hi
      rcases List.mem_cons.1 hi with rfl | hi
      · rcases hit with ⟨g1, g2, g3⟩ | ⟨col, hmc, hops, hr⟩
        · exact .inl ⟨g1, g2, fun o ho => g3 o (List.mem_cons_of_mem _ ho)⟩
        · exact .inr ⟨col, hmc, fun o ho => hops o (List.mem_cons_of_mem _ ho), hr⟩
      · rcases List.mem_append.1 hi with hi | hi
        · exact itemOk_fired hit it hi
        · exact h1 it (List.mem_cons_of_mem _ hi)
    · have hfired : ((applyOp E t op db).2.flatMap (E.fired fr)).flatMap (insKeys S t') = [] := by
        rw [List.flatMap_eq_nil_iff]
        intro it hi
        obtain ⟨ch, _, hi⟩ := List.mem_flatMap.1 hi
        obtain ⟨tr, _, _, a, _, rfl⟩ := mem_fired.1 hi
        rfl
      rw [List.flatMap_cons, List.flatMap_append, hfired, List.nil_append]
      have h3 := h2 t'
      rw [List.flatMap_cons] at h3
      by_cases ht : t = t'
      · subst ht
        cases op with
        | ins r =>
          simpa [applyOp, Db.setRows, insKeys] using h3
        | upd i σ =>
          have h4 : ((db.rows t).map (fun r => r (S.key t)) ++ (insKeys S t (.write fr t ops) ++ W.flatMap (insKeys S t))).Nodup := by
            simpa [insKeys] using h3
          cases hi : (db.rows t)[i]? with
          | none => simpa [applyOp, hi] using h4
          | some old =>
            obtain ⟨x, _, hch, _⟩ := applyOp_effect E t (.upd i σ) db
            have hx : x = some (.update, old, σ (E.rand db.draws) old) := by
              refine effectChange_inj (hch.symm.trans ?_)
              simp [applyOp, hi, effectChange]
            have hkk := keyKept_of hs hm hit hch _ _ hx
            have : ((applyOp E t (.upd i σ) db).1.rows t).map (fun r => r (S.key t)) = (db.rows t).map fun r => r (S.key t) := by
              simp only [applyOp, hi, Db.setRows, if_true]
              rw [List.map_set, hkk]
              apply List.ext_getElem?
              intro j
              rw [List.getElem?_set]
              split
              · rename_i hij
                subst hij
                rw [List.getElem?_map, hi]
                split
                · rfl
                · rename_i hlt
                  simp only [List.length_map] at hlt
                  exact absurd (List.getElem?_eq_some_iff.1 hi).1 hlt
              · rfl
            rw [this]
            exact h4
        | del w =>
          have h4 : ((db.rows t).map (fun r => r (S.key t)) ++ (insKeys S t (.write fr t ops) ++ W.flatMap (insKeys S t))).Nodup := by
            simpa [insKeys] using h3
          cases hf : (db.rows t).find? w with
          | none => simpa [applyOp, hf] using h4
          | some old =>
            simp only [applyOp, hf, Db.setRows, if_true]
            exact h4.sublist ((List.eraseP_sublist.map _).append_right _)
      · have hrows : (applyOp E t op db).1.rows t' = db.rows t' := by
          have ht' : t' ≠ t := Ne.symm ht
          cases op with
          | ins n => simp [applyOp, Db.setRows, ht']
          | upd i σ => simp only [applyOp]; split <;> simp [Db.setRows, ht']
          | del w => simp only [applyOp]; split <;> simp [Db.setRows, ht']
        rw [hrows]
        simpa [insKeys, ht] using h3
  markValues := by
    rintro fr ch ct s c q W db ⟨h1, h2⟩
    exact ⟨fun it hit => h1 it (List.mem_cons_of_mem _ hit), fun t => by simpa [insKeys] using h2 t⟩
  markSelect := by
    rintro fr ch ct sel t k s c q W db ⟨h1, h2⟩
    exact ⟨fun it hit => h1 it (List.mem_cons_of_mem _ hit), fun t => by simpa [insKeys] using h2 t⟩
  update := by
    rintro fr ch u W db _ ⟨h1, h2⟩
    refine ⟨fun it hit => ?_, fun t => ?_⟩
    · rcases List.mem_append.1 hit with hit | hit
      · exact itemOk_update hR (h1 _ (List.mem_cons_self ..)) it hit
      · exact h1 it (List.mem_cons_of_mem _ hit)
    · have h3 := h2 t
      rw [List.flatMap_cons] at h3
      rw [List.flatMap_append]
      have : (writes E.backend fr u.table (u.ops ch db)).flatMap (insKeys S t) = [] := by
        rw [List.flatMap_eq_nil_iff]
        intro it hi
        obtain ⟨l, rfl, hl⟩ := mem_writes hi
        refine insKeys_upd fun op ho => ?_
        obtain ⟨i, _, rfl⟩ := List.mem_map.1 (hl op ho)
        exact ⟨i, _, rfl⟩
      rw [this]
      simpa [insKeys] using h3

/-- Primary keys stay unique. -/
theorem keysDistinct_exec {E : Engine} {S : Schema} (hN : NoReentry E) {fuel : Nat} {s : Stmt} {db db' : Db}
    (he : E.exec fuel s db = .ok db') (hs : KeepsKeys S db s) (hm : ∀ t, ¬ Managed E t (S.key t)) (hK : KeysDistinct S db) : KeysDistinct S db' := by
  obtain ⟨rank, hR⟩ := hN.ranked
  have := (keysInv hR hs hm).exec he ⟨itemOk_start E rank s db, fun t => ?_⟩
  · intro t
    simpa using this.2 t
  · have hw : ∀ ops : List RowOp, (writes E.backend .top s.table ops).flatMap (insKeys S t) = insKeys S t (.write .top s.table ops) := by
      intro ops
      cases E.backend <;> simp only [writes, List.flatMap_cons, List.flatMap_nil, List.append_nil]
      all_goals
        induction ops with
        | nil => simp [insKeys]
        | cons op ops ih =>
          rw [List.map_cons, List.flatMap_cons, ih]
          simp only [insKeys]
          split
          · cases op <;> simp
          · rfl
    rw [Engine.start, hw]
    cases s with
    | update t' w σ =>
      rw [insKeys_upd, List.append_nil]
      · exact hK t
      · intro op ho
        obtain ⟨i, _, rfl⟩ := List.mem_map.1 ho
        exact ⟨i, σ, rfl⟩
    | insert t' rs =>
      simp only [insKeys, Stmt.table, Stmt.ops, List.filterMap_map]
      split
      · rename_i ht
        subst ht
        have : ((db.rows t' ++ rs).map fun r => r (S.key t')).Nodup := hs
        simpa [Function.comp_def] using this
      · simpa using hK t
    | delete t' w =>
      have : insKeys S t (.write .top t' ((targetsOf (db.rows t') w).map fun _ => RowOp.del w)) = [] := by
        simp only [insKeys, List.filterMap_map]
        split
        · rw [List.filterMap_eq_nil_iff]; intros; rfl
        · rfl
      simp only [Stmt.table, Stmt.ops, this, List.append_nil]
      exact hK t

/-! ## Merging -/

/-- The situation in which the changes of a session are merged into the committed state, for all tables. -/
def MergeableDb (S : Schema) (base view cur : Db) : Prop := ∀ t, Mergeable (S.key t) (base.rows t) (view.rows t) (cur.rows t)

theorem seen_key {kc : Col} {reads : List Col} {rs rs' : List Row} (h : seen (kc :: reads) rs = seen (kc :: reads) rs') :
    rs.map (fun o => (o kc, reads.map o)) = rs'.map fun o => (o kc, reads.map o) := by
  have := congrArg (fun l : List (List Val) => l.map fun x => (x.headD .null, x.tailD [])) h
  simpa [seen, Function.comp_def] using this

theorem key_seen {kc : Col} {reads : List Col} {rs rs' : List Row}
    (h : rs.map (fun o => (o kc, reads.map o)) = rs'.map fun o => (o kc, reads.map o)) : seen (kc :: reads) rs = seen (kc :: reads) rs' := by
  have := congrArg (fun l : List (Val × List Val) => l.map fun x => x.1 :: x.2) h
  simpa [seen, Function.comp_def] using this

/-- The related rows are the rows of the other table that satisfy a condition, for all relations but many-to-many ones. -/
theorem related_filter {d : Dep} (h : d.m2mTable = none) (r : Row) : ∃ p : Row → Bool, ∀ db : Db,
    relatedRows d db r = (db.rows d.otherTable).filter p := by
  rcases hf : d.rel with f | f | (m | g) | (m | g)
  · exact ⟨_, fun db => by simp only [relatedRows, hf, Dep.otherTable]; rfl⟩
  · exact ⟨_, fun db => by simp only [relatedRows, hf, Dep.otherTable]; rfl⟩
  · simp [Dep.m2mTable, hf] at h
  · exact ⟨_, fun db => by simp only [relatedRows, hf, Dep.otherTable]; rfl⟩
  · simp [Dep.m2mTable, hf] at h
  · exact ⟨_, fun db => by simp only [relatedRows, hf, Dep.otherTable]; rfl⟩

/-- The changes of a session (from `base` to `view`) do not concern what row `r` sees in the committed state `cur`. -/
def Unmoved (S : Schema) (d : DepRead) (base view cur : Db) (r : Row) : Prop :=
  match d.dep.m2mTable with
  | some (tbl, c, k) =>
    (∀ x, x ∈ ((view.rows tbl).filter fun l => Val.sqlEq (l c) (r d.dep.this.pk)).map (fun l => (l (S.key tbl), l k)) ↔
      x ∈ ((base.rows tbl).filter fun l => Val.sqlEq (l c) (r d.dep.this.pk)).map fun l => (l (S.key tbl), l k)) ∧
    ∀ l ∈ (cur.rows tbl).filter (fun l => Val.sqlEq (l c) (r d.dep.this.pk)), ∀ x,
      x ∈ ((view.rows d.dep.other.table).filter fun o => Val.sqlEq (o d.dep.other.pk) (l k)).map
        (fun o => (o (S.key d.dep.other.table), d.reads.map o)) ↔
      x ∈ ((base.rows d.dep.other.table).filter fun o => Val.sqlEq (o d.dep.other.pk) (l k)).map
        fun o => (o (S.key d.dep.other.table), d.reads.map o)
  | none => ∀ x, x ∈ (relatedRows d.dep view r).map (fun o => (o (S.key d.dep.otherTable), d.reads.map o)) ↔
      x ∈ (relatedRows d.dep base r).map fun o => (o (S.key d.dep.otherTable), d.reads.map o)

/-- The links and the rows they lead to. -/
theorem keyedView_split {S : Schema} {d : DepRead} {tbl : TableName} {c k : Col} (hm : d.dep.m2mTable = some (tbl, c, k)) (db : Db) (r : Row) :
    keyedView S d db r = (((db.rows tbl).filter fun l => Val.sqlEq (l c) (r d.dep.this.pk)).map fun l => (l (S.key tbl), l k)).map fun x =>
      (x, seen (S.key d.dep.other.table :: d.reads) ((db.rows d.dep.other.table).filter fun o => Val.sqlEq (o d.dep.other.pk) x.2)) := by
  rw [keyedView_some hm, ← List.map_eq_flatMap]
  simp [Function.comp_def]

/-- What a row sees does not change by merging changes that do not concern it. -/
theorem keyedView_merge {S : Schema} {d : DepRead} {base view cur : Db} (h : MergeableDb S base view cur) {r : Row}
    (hu : Unmoved S d base view cur r) : keyedView S d (Db.merge S base view cur) r = keyedView S d cur r := by
  cases hm : d.dep.m2mTable with
  | none =>
    obtain ⟨p, hp⟩ := related_filter hm r
    simp only [Unmoved, hm, hp] at hu
    simp only [keyedView_none hm, hp, List.cons.injEq, Prod.mk.injEq, true_and, and_true]
    exact key_seen (merge_filter (h d.dep.otherTable) p (fun o => d.reads.map o) hu)
  | some q =>
    obtain ⟨tbl, c, k⟩ := q
    simp only [Unmoved, hm] at hu
    have hlinks : ((((Db.merge S base view cur).rows tbl).filter fun l => Val.sqlEq (l c) (r d.dep.this.pk)).map fun l => (l (S.key tbl), l k)) =
        ((cur.rows tbl).filter fun l => Val.sqlEq (l c) (r d.dep.this.pk)).map fun l => (l (S.key tbl), l k) :=
      merge_filter (h tbl) (fun l => Val.sqlEq (l c) (r d.dep.this.pk)) (fun l => l k) hu.1
    rw [keyedView_split hm, keyedView_split hm, hlinks]
    refine List.map_congr_left fun x hx => ?_
    obtain ⟨l, hl1, rfl⟩ := List.mem_map.1 hx
    have : seen (S.key d.dep.other.table :: d.reads)
          (((Db.merge S base view cur).rows d.dep.other.table).filter fun o => Val.sqlEq (o d.dep.other.pk) (l k)) =
        seen (S.key d.dep.other.table :: d.reads) ((cur.rows d.dep.other.table).filter fun o => Val.sqlEq (o d.dep.other.pk) (l k)) :=
      key_seen (merge_filter (h d.dep.other.table) _ (fun o => d.reads.map o) (hu.2 l hl1))
    simp only [this]

/-- The rows that the links of `r` lead to look the same if the row sees the same. -/
theorem others_of_keyed {S : Schema} {d : DepRead} {tbl : TableName} {c k : Col} (hm : d.dep.m2mTable = some (tbl, c, k)) {db db' : Db} {r : Row}
    (hv : keyedView S d db r = keyedView S d db' r) {l : Row} (hl : l ∈ (db'.rows tbl).filter fun l => Val.sqlEq (l c) (r d.dep.this.pk)) :
    ((db.rows d.dep.other.table).filter fun o => Val.sqlEq (o d.dep.other.pk) (l k)).map (fun o => (o (S.key d.dep.other.table), d.reads.map o)) =
    ((db'.rows d.dep.other.table).filter fun o => Val.sqlEq (o d.dep.other.pk) (l k)).map fun o => (o (S.key d.dep.other.table), d.reads.map o) := by
  rw [keyedView_split hm, keyedView_split hm] at hv
  have h1 : ((l (S.key tbl), l k), seen (S.key d.dep.other.table :: d.reads)
      ((db'.rows d.dep.other.table).filter fun o => Val.sqlEq (o d.dep.other.pk) (l k))) ∈
      (((db'.rows tbl).filter fun l => Val.sqlEq (l c) (r d.dep.this.pk)).map fun l => (l (S.key tbl), l k)).map fun x =>
      (x, seen (S.key d.dep.other.table :: d.reads) ((db'.rows d.dep.other.table).filter fun o => Val.sqlEq (o d.dep.other.pk) x.2)) :=
    List.mem_map.2 ⟨_, List.mem_map.2 ⟨l, hl, rfl⟩, rfl⟩
  rw [← hv] at h1
  obtain ⟨x, _, hx⟩ := List.mem_map.1 h1
  simp only [Prod.mk.injEq] at hx
  obtain ⟨rfl, hx⟩ := hx
  exact seen_key hx

theorem links_of_keyed {S : Schema} {d : DepRead} {tbl : TableName} {c k : Col} (hm : d.dep.m2mTable = some (tbl, c, k)) {db db' : Db} {r r' : Row}
    (hv : keyedView S d db r = keyedView S d db' r') :
    (((db.rows tbl).filter fun l => Val.sqlEq (l c) (r d.dep.this.pk)).map fun l => (l (S.key tbl), l k)) =
    ((db'.rows tbl).filter fun l => Val.sqlEq (l c) (r' d.dep.this.pk)).map fun l => (l (S.key tbl), l k) := by
  rw [keyedView_split hm, keyedView_split hm] at hv
  simpa [Function.comp_def] using congrArg (fun l => l.map Prod.fst) hv

/-- The changes of a session that has just seen the committed state. -/
theorem unmoved_of_keyed {S : Schema} {d : DepRead} {base view : Db} {r : Row} (hv : keyedView S d view r = keyedView S d base r) :
    Unmoved S d base view base r := by
  cases hm : d.dep.m2mTable with
  | none =>
    simp only [Unmoved, hm]
    simp only [keyedView_none hm, List.cons.injEq, Prod.mk.injEq, true_and, and_true] at hv
    intro x
    rw [seen_key hv]
  | some q =>
    obtain ⟨tbl, c, k⟩ := q
    simp only [Unmoved, hm]
    exact ⟨fun x => by rw [links_of_keyed hm hv], fun l hl x => by rw [others_of_keyed hm hv hl]⟩

/-- If the merged state shows a row the same as the committed one, the changes do not concern it. -/
theorem unmoved_of_merge {S : Schema} {d : DepRead} {base view cur : Db} (h : MergeableDb S base view cur) {r : Row}
    (hv : keyedView S d (Db.merge S base view cur) r = keyedView S d cur r) : Unmoved S d base view cur r := by
  cases hm : d.dep.m2mTable with
  | none =>
    obtain ⟨p, hp⟩ := related_filter hm r
    simp only [Unmoved, hm, hp]
    simp only [keyedView_none hm, hp, List.cons.injEq, Prod.mk.injEq, true_and, and_true] at hv
    refine filter_of_merge (h d.dep.otherTable) p (fun o => d.reads.map o) fun x => ?_
    have := seen_key hv
    change x ∈ List.map _ (List.filter p ((Db.merge S base view cur).rows d.dep.otherTable)) ↔ _
    rw [this]
  | some q =>
    obtain ⟨tbl, c, k⟩ := q
    simp only [Unmoved, hm]
    refine ⟨filter_of_merge (h tbl) _ (fun l => l k) fun x => ?_, fun l hl =>
      filter_of_merge (h d.dep.other.table) _ (fun o => d.reads.map o) fun x => ?_⟩
    · have := links_of_keyed hm hv
      change x ∈ List.map _ (List.filter _ ((Db.merge S base view cur).rows tbl)) ↔ _
      rw [this]
    · have := others_of_keyed hm hv hl
      change x ∈ List.map _ (List.filter _ ((Db.merge S base view cur).rows d.dep.other.table)) ↔ _
      rw [this]

/-- Whether the changes concern a row depends on the row's own columns and on what it sees. -/
theorem unmoved_congr {S : Schema} {d : DepRead} (hg : ∀ g, d.dep.rel ≠ .backwardM2M (.generic g)) {base view cur cur' : Db} {r r' : Row}
    (hpk : r d.dep.this.pk = r' d.dep.this.pk) (hk : ∀ c ∈ d.dep.ownKeys, r c = r' c)
    (hv : keyedView S d cur r = keyedView S d cur' r') (hu : Unmoved S d base view cur r) : Unmoved S d base view cur' r' := by
  cases hm : d.dep.m2mTable with
  | none =>
    simp only [Unmoved, hm] at hu ⊢
    rw [← related_congr hg hpk hk, ← related_congr hg hpk hk]
    exact hu
  | some q =>
    obtain ⟨tbl, c, k⟩ := q
    simp only [Unmoved, hm] at hu ⊢
    rw [← hpk]
    refine ⟨hu.1, fun l hl => ?_⟩
    have hl' := links_of_keyed hm hv
    have : (l (S.key tbl), l k) ∈ ((cur'.rows tbl).filter fun l => Val.sqlEq (l c) (r' d.dep.this.pk)).map fun l => (l (S.key tbl), l k) :=
      List.mem_map.2 ⟨l, by rw [← hpk]; exact hl, rfl⟩
    rw [← hl'] at this
    obtain ⟨l0, hl0, he⟩ := List.mem_map.1 this
    simp only [Prod.mk.injEq] at he
    rw [← he.2]
    exact hu.2 l0 hl0

end Denorm
