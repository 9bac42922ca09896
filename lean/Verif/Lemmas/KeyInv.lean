import Verif.Lemmas.CacheKey
/-!
# The invariants behind the renewal of CacheKeyFields
-/
namespace Denorm

/-- Where the work of triggers comes from. -/
def NestOk (E : Engine) (rank : String → Nat) : Item → Prop
  | .write fr t ops => ∃ tr ∈ E.triggers, ∃ u ch0 db0, Action.update u ∈ tr.actions ∧ u.table = t ∧
      (∀ op ∈ ops, ∃ i, op = .upd i (u.set ch0 db0)) ∧
      (E.backend = .sqlite → ∀ tr' ∈ E.triggers, tr'.table = t → tr'.event = .update → u.col ∈ tr'.fields →
        ∀ n ∈ fr.trigs, rank tr'.name < rank n)
  | .act fr _ a => ∃ tr ∈ E.triggers, a ∈ tr.actions ∧ (E.backend = .sqlite → ∀ n ∈ fr.trigs, rank tr.name ≤ rank n)

theorem NestOk.itemOk {E : Engine} {rank : String → Nat} {s : Stmt} {it : Item} (h : NestOk E rank it) : ItemOk E rank s it := by
  cases it with
  | act => exact h
  | write fr t ops =>
    obtain ⟨tr, htr, u, ch0, db0, hu, ht, hops, hr⟩ := h
    refine .inr ⟨u.col, ⟨tr, htr, u, hu, ht, rfl⟩, fun op ho => ?_, hr⟩
    obtain ⟨i, rfl⟩ := hops op ho
    exact ⟨i, _, rfl, fun x r c hc => u.set_other ch0 db0 x r c hc⟩

theorem nestOk_update {E : Engine} {rank : String → Nat} (hR : Ranked E rank) {fr : Frame} {ch : Change}
    {u : UpdAction} {db : Db} (h : NestOk E rank (.act fr ch (.update u))) :
    ∀ it ∈ writes E.backend fr u.table (u.ops ch db), NestOk E rank it := by
  intro it hit
  obtain ⟨l, rfl, hl⟩ := mem_writes hit
  obtain ⟨tr, htr, ha, hr⟩ := h
  refine ⟨tr, htr, u, ch, db, ha, rfl, ?_, ?_⟩
  · intro op ho
    obtain ⟨i, _, rfl⟩ := List.mem_map.1 (hl op ho)
    exact ⟨i, rfl⟩
  · intro hb tr' htr' h1 h2 h3 n hn
    exact Nat.lt_of_lt_of_le (hR hb tr htr u ha tr' htr' h1 h2 h3) (hr hb n hn)

theorem nestOk_fired {E : Engine} {rank : String → Nat} {s : Stmt} {fr : Frame} {t : TableName} {op : RowOp}
    {ops : List RowOp} {db : Db} (h : ItemOk E rank s (.write fr t (op :: ops))) :
    ∀ it ∈ (applyOp E t op db).2.flatMap (E.fired fr), NestOk E rank it := by
  intro it hit
  have h1 := itemOk_fired (db := db) h it hit
  cases it with
  | act => exact h1
  | write => exact absurd (isAct_fired hit) (by simp [Item.isAct])

theorem writes_mem {b : Backend} {fr : Frame} {t : TableName} {ops : List RowOp} {op : RowOp} (h : op ∈ ops) :
    ∃ l, .write fr t l ∈ writes b fr t ops ∧ op ∈ l := by
  cases b
  · exact ⟨[op], List.mem_map.2 ⟨op, h, rfl⟩, by simp⟩
  · exact ⟨[op], List.mem_map.2 ⟨op, h, rfl⟩, by simp⟩
  · exact ⟨ops, by simp [writes], h⟩

/-- The statement itself does not write keys or the ForeignKeys of the model. -/
def Steady (k : KeyField) : Stmt → Prop
  | .update t _ σ => t = k.model.table → ∀ x r, σ x r k.field = r k.field ∧ ∀ c ∈ k.fks, σ x r c = r c
  | _ => True

/-- What holds all the time while a statement runs. -/
structure KeyBase (E : Engine) (k : KeyField) (rank : String → Nat) (s : Stmt) (ops : List RowOp) (W : List Item) (db : Db) : Prop where
  legal : LegalStmt E k.relations db s
  keys : KeysOk k.relations db
  items : ∀ it ∈ W, NestOk E rank it
  tops : ∀ op ∈ ops, TopOp s op
  fresh : s.table = k.model.table → ∀ r, .ins r ∈ ops → ∀ r0 ∈ db.rows k.model.table, r0 k.model.pk ≠ r k.model.pk
  pair : s.table = k.model.table → ops.Pairwise fun op op' => ∀ r r', op = .ins r → op' = .ins r' → r k.model.pk ≠ r' k.model.pk
  steady : Steady k s ∨ ops = [] ∨ ops.length ≤ 1 ∧ W = []

section
variable {E : Engine} {k : KeyField} {rank : String → Nat} {s : Stmt}

theorem topItem {ops : List RowOp} (h : ∀ op ∈ ops, TopOp s op) : ItemOk E rank s (.write .top s.table ops) := .inl ⟨rfl, rfl, h⟩

theorem KeyBase.rows {ops : List RowOp} {W : List Item} {db db' : Db} (h : KeyBase E k rank s ops W db) (hr : db'.rows = db.rows)
    {W' : List Item} (hn : W = [] → W' = []) (hW : ∀ it ∈ W', NestOk E rank it) : KeyBase E k rank s ops W' db' :=
  ⟨TrackInv.of_rows hr h.legal, fun p hp r hrm => h.keys p hp r (hr ▸ hrm), hW, h.tops,
    fun ht r hi r0 h0 => h.fresh ht r hi r0 (hr ▸ h0), h.pair, h.steady.imp_right (Or.imp_right fun h => ⟨h.1, hn h.2⟩)⟩

theorem keyBase (hT : KeyTracks E k) (hR : Ranked E rank) : PhaseInvQ E (fun _ _ => True) s.table (KeyBase E k rank s) where
  nested := fun rest => {
    perm := fun hp h => h.rows rfl (fun e => by subst e; exact hp.nil_eq.symm) fun it hit => h.items it (hp.mem_iff.2 hit)
    writeNil := fun h => h.rows rfl (by simp) fun it hit => h.items it (List.mem_cons_of_mem _ hit)
    writeOp := by
      intro fr t op ops W db _ h
      have hn := h.items _ (List.mem_cons_self ..)
      have hit : ItemOk E rank s _ := hn.itemOk
      obtain ⟨x, hw, hch⟩ := writeOk_of hT.toGround h.legal h.keys hit
      refine ⟨legal_step hT.toGround h.legal hit, keysOk_step hw, ?_, h.tops, ?_, h.pair,
        h.steady.imp_right (Or.imp_right fun h => absurd h.2 (by simp))⟩
      · intro it hi
        rcases List.mem_cons.1 hi with rfl | hi
        · obtain ⟨tr, htr, u, ch0, db0, h1, h2, h3, h4⟩ := hn
          exact ⟨tr, htr, u, ch0, db0, h1, h2, fun o ho => h3 o (List.mem_cons_of_mem _ ho), h4⟩
        · rcases List.mem_append.1 hi with hi | hi
          · exact nestOk_fired hit it hi
          · exact h.items it (List.mem_cons_of_mem _ hi)
      · intro hst r hr r0 h0
        by_cases ht : k.model.table = t
        · rw [ht] at h0
          rcases effect_mem hw.eff h0 with h1 | hx | ⟨o, ho, hx⟩
          · exact h.fresh hst r hr r0 (ht ▸ h1)
          · obtain ⟨tr, htr, u, ch0, db0, _, _, h3, _⟩ := hn
            obtain ⟨i, hi⟩ := h3 op (List.mem_cons_self ..)
            subst hx
            rw [hi] at hch
            simp only [applyOp] at hch
            split at hch <;> simp [effectChange] at hch
          · have := hw.keep o r0 hx (k.model.table, k.model.pk) (List.mem_cons_self ..) ht
            rw [this]
            exact h.fresh hst r hr o (ht ▸ ho)
        · rw [hw.other _ ht] at h0
          exact h.fresh hst r hr r0 h0
    markValues := fun h => h.rows (Db.addMarks_rows ..) (by simp) fun it hit => h.items it (List.mem_cons_of_mem _ hit)
    markSelect := fun h => h.rows (Db.addMarks_rows ..) (by simp) fun it hit => h.items it (List.mem_cons_of_mem _ hit)
    update := by
      intro fr ch u W db _ h
      refine h.rows rfl (by simp) fun it hi => ?_
      rcases List.mem_append.1 hi with hi | hi
      · exact nestOk_update hR (h.items _ (List.mem_cons_self ..)) it hi
      · exact h.items it (List.mem_cons_of_mem _ hi) }
  top := by
    intro op ops W db hW _ h
    have hit : ItemOk E rank s (.write .top s.table (op :: ops)) := topItem h.tops
    obtain ⟨x, hw, hch⟩ := writeOk_of hT.toGround h.legal h.keys hit
    refine ⟨legal_step hT.toGround h.legal hit, keysOk_step hw, ?_, fun o ho => h.tops o (List.mem_cons_of_mem _ ho), ?_,
      fun ht => (List.pairwise_cons.1 (h.pair ht)).2, ?_⟩
    · intro it hi
      rcases List.mem_append.1 hi with hi | hi
      · exact nestOk_fired hit it hi
      · exact h.items it hi
    · intro hst r hr r0 h0
      have hr' : RowOp.ins r ∈ op :: ops := List.mem_cons_of_mem _ hr
      rw [← hst] at h0
      rcases effect_mem hw.eff h0 with h1 | hx | ⟨o, ho, hx⟩
      · exact h.fresh hst r hr' r0 (hst ▸ h1)
      · obtain ⟨y, _, hy2, _, hins, _⟩ := applyOp_effect E s.table op db
        rw [hch, hx] at hy2
        have : y = some (.insert, r0, r0) := by
          rcases y with _ | ⟨e, a, b⟩
          · simp [effectChange] at hy2
          · simp only [effectChange, List.cons.injEq, Change.mk.injEq, and_true, true_and] at hy2
            obtain ⟨rfl, rfl, rfl⟩ := hy2
            rfl
        exact (List.pairwise_cons.1 (h.pair hst)).1 _ hr r0 r (hins _ _ this) rfl
      · rw [hw.keep o r0 hx (k.model.table, k.model.pk) (List.mem_cons_self ..) hst.symm]
        exact h.fresh hst r hr' o (hst ▸ ho)
    · rcases h.steady with h1 | h1 | h1
      · exact .inl h1
      · simp at h1
      · right; left
        simpa using h1.1

/-! ## Drawn or pending -/

/-- The item will renew the key of row `r`, which is at position `i` of its table. -/
def Pend (k : KeyField) (db : Db) (i : Nat) (r : Row) : Item → Prop
  | .write _ t ops => t = k.model.table ∧ ∃ σ, .upd i σ ∈ ops ∧ ∀ x r, σ x r k.field = .int x
  | it => PendAct k db r it

theorem pendAct_congr {db db' : Db} {r r' : Row} {it : Item} (hk : ∀ c, c = k.model.pk ∨ c ∈ k.fks → r' c = r c)
    (hl : ∀ fr ch a, it = .act fr ch a → ∀ d ∈ k.deps, ∀ tbl c c', d.dep.m2mTable = some (tbl, c, c') → ch.table ≠ tbl →
      ∀ l ∈ db.rows tbl, ∃ l' ∈ db'.rows tbl, l' c = l c ∧ l' c' = l c') (h : PendAct k db r it) : PendAct k db' r' it := by
  rcases it with _ | ⟨fr, ch, a⟩
  · exact absurd h (by simp [PendAct])
  rcases a with _ | _ | u
  · exact absurd h (by simp [PendAct])
  · exact absurd h (by simp [PendAct])
  obtain ⟨h1, h2, h3, h4, h5⟩ := h
  refine ⟨h1, h2, h3, h4, ?_⟩
  cases hu : u.key with
  | eq c s0 c0 =>
    rw [hu] at h4 h5
    simp only [Key.matches] at h5 ⊢
    rw [hk c h4]
    exact h5
  | inSelect c sel tbl wk s0 c0 =>
    rw [hu] at h4 h5
    obtain ⟨e1, e2, d, hd, hm⟩ := h4
    simp only [Key.matches, List.any_eq_true, Bool.and_eq_true] at h5 ⊢
    obtain ⟨l, hlm, h6, h7⟩ := h5
    obtain ⟨l', hl', e3, e4⟩ := hl fr ch _ rfl d hd tbl sel wk hm e2 l hlm
    exact ⟨l', hl', by rw [e4]; exact h6, by rw [e3, hk c (.inl e1)]; exact h7⟩

/-- Rows with a concerned key have been given draws of their own since `start`, or will be. -/
structure KeyInv (E : Engine) (k : KeyField) (rank : String → Nat) (s : Stmt) (C : Val → Prop) (start : Nat) (ops : List RowOp)
    (W : List Item) (db : Db) : Prop where
  base : KeyBase E k rank s ops W db
  le : start ≤ db.draws
  new : s.table = k.model.table → ∀ r, .ins r ∈ ops → ¬ C (r k.model.pk)
  still : Steady k s ∨ ops = []
  drawn : ∃ zs : List (Row × Option Nat), zs.map Prod.fst = db.rows k.model.table ∧ (zs.filterMap Prod.snd).Nodup ∧
    (∀ z ∈ zs, ∀ j, z.2 = some j → start ≤ j ∧ j < db.draws ∧ z.1 k.field = .int (E.rand j)) ∧
    ∀ i z, zs[i]? = some z → C (z.1 k.model.pk) → z.2 ≠ none ∨ ∃ it ∈ W, Pend k db i z.1 it

theorem nodup_replace {l1 l2 : List (Row × Option Nat)} {z : Row × Option Nat} {r : Row} {n : Nat}
    (h : ((l1 ++ z :: l2).filterMap Prod.snd).Nodup) (hlt : ∀ y ∈ l1 ++ z :: l2, ∀ j, y.2 = some j → j < n) :
    ((l1 ++ (r, some n) :: l2).filterMap Prod.snd).Nodup := by
  have h1 : ((l1 ++ l2).filterMap Prod.snd).Nodup := by
    refine List.Nodup.sublist (List.Sublist.filterMap _ ?_) h
    exact List.Sublist.append_left (List.sublist_cons_self ..) _
  have h2 : n ∉ (l1 ++ l2).filterMap Prod.snd := by
    intro hn
    obtain ⟨y, hy, hyn⟩ := List.mem_filterMap.1 hn
    have := hlt y (by
      rcases List.mem_append.1 hy with hy | hy
      · exact List.mem_append_left _ hy
      · exact List.mem_append_right _ (List.mem_cons_of_mem _ hy)) n hyn
    omega
  have hp : ((l1 ++ (r, some n) :: l2).filterMap Prod.snd).Perm (n :: (l1 ++ l2).filterMap Prod.snd) := by
    simp only [List.filterMap_append, List.filterMap_cons]
    exact List.perm_middle
  exact hp.nodup_iff.2 (List.nodup_cons.2 ⟨h2, h1⟩)

theorem keyInv_nested (hT : KeyTracks E k) (hR : Ranked E rank) {C : Val → Prop} {start : Nat} {rest : List RowOp} {fr : Frame}
    {t : TableName} {op : RowOp} {ops : List RowOp} {W : List Item} {db : Db}
    (h : KeyInv E k rank s C start rest (.write fr t (op :: ops) :: W) db) :
    KeyInv E k rank s C start rest (.write fr t ops :: ((applyOp E t op db).2.flatMap (E.fired fr) ++ W)) (applyOp E t op db).1 := by
  have hb := ((keyBase (s := s) hT hR).nested rest).writeOp (fun _ _ => trivial) h.base
  obtain ⟨tr, htr, u, ch0, db0, hu, hut, hops, _⟩ := h.base.items _ (List.mem_cons_self ..)
  obtain ⟨i, hop⟩ := hops op (List.mem_cons_self ..)
  obtain ⟨zs, hz1, hz2, hz3, hz4⟩ := h.drawn
  have hman : Managed E t u.col := ⟨tr, htr, u, hu, hut, rfl⟩
  cases hrow : (db.rows t)[i]? with
  | none =>
    have hap : applyOp E t op db = (db, []) := by simp only [hop, applyOp, hrow]
    rw [hap] at hb ⊢
    refine ⟨hb, h.le, h.new, h.still, zs, hz1, hz2, hz3, fun j z hj hC => ?_⟩
    rcases hz4 j z hj hC with h1 | ⟨it, hit, hp⟩
    · exact .inl h1
    · right
      rcases List.mem_cons.1 hit with rfl | hit
      · obtain ⟨ht, σ, hσ, hran⟩ := hp
        rcases List.mem_cons.1 hσ with e | hσ
        · rw [hop] at e
          simp only [RowOp.upd.injEq] at e
          rw [← e.1] at hrow
          have : (zs.map Prod.fst)[j]? = none := by rw [hz1, ← ht]; exact hrow
          rw [List.getElem?_map, hj] at this
          simp at this
        · exact ⟨_, List.mem_cons_self .., ht, σ, hσ, hran⟩
      · exact ⟨it, by simp [hit], hp⟩
  | some old =>
    have hap : applyOp E t op db =
        ({ db.setRows t ((db.rows t).set i (u.set ch0 db0 (E.rand db.draws) old)) with draws := db.draws + 1 },
          [⟨t, .update, old, u.set ch0 db0 (E.rand db.draws) old⟩]) := by simp only [hop, applyOp, hrow]
    have hother : ∀ c, c ≠ u.col → u.set ch0 db0 (E.rand db.draws) old c = old c := fun c hc => UpdAction.set_other _ _ _ _ _ _ hc
    have hpk : t = k.model.table → ∀ c, c = k.model.pk ∨ c ∈ k.fks → u.set ch0 db0 (E.rand db.draws) old c = old c := by
      intro ht c hc
      refine hother c fun e => ?_
      subst e ht
      rcases hc with hc | hc
      · exact hT.pks (k.model.table, k.model.pk) (List.mem_cons_self ..) (hc ▸ hman)
      · exact hT.fks _ hc hman
    have hlinks : ∀ d ∈ k.deps, ∀ tbl c c', d.dep.m2mTable = some (tbl, c, c') → ∀ l ∈ db.rows tbl,
        ∃ l' ∈ (applyOp E t op db).1.rows tbl, l' c = l c ∧ l' c' = l c' := by
      intro d hd tbl c c' hm l hl
      by_cases htt : tbl = t
      · subst htt
        rw [hap]
        simp only [Db.setRows_same]
        obtain ⟨l1, l2, e1, e2⟩ := set_split (u.set ch0 db0 (E.rand db.draws) old) hrow
        rw [e2]
        rw [e1] at hl
        simp only [List.mem_append, List.mem_cons] at hl ⊢
        rcases hl with hl | rfl | hl
        · exact ⟨l, .inl hl, rfl, rfl⟩
        · refine ⟨_, .inr (.inl rfl), hother c fun e => ?_, hother c' fun e => ?_⟩
          · exact hT.linkOwn d hd _ _ _ hm (e ▸ hman)
          · exact hT.linkCol d hd _ _ _ hm (e ▸ hman)
        · exact ⟨l, .inr (.inr hl), rfl, rfl⟩
      · exact ⟨l, by rw [applyOp_rows_other E op db htt]; exact hl, rfl, rfl⟩
    have hdraws : (applyOp E t op db).1.draws = db.draws + 1 := by rw [hap]
    -- what happens to what is pending
    have hpend : ∀ j r r', (∀ c, c = k.model.pk ∨ c ∈ k.fks → r' c = r c) → (∃ it ∈ .write fr t (op :: ops) :: W, Pend k db j r it) →
        (t = k.model.table ∧ j = i ∧ u.col = k.field) ∨
        ∃ it ∈ Item.write fr t ops :: ((applyOp E t op db).2.flatMap (E.fired fr) ++ W), Pend k (applyOp E t op db).1 j r' it := by
      rintro j r r' hrr ⟨it, hit, hp⟩
      rcases List.mem_cons.1 hit with rfl | hit
      · obtain ⟨ht, σ, hσ, hran⟩ := hp
        rcases List.mem_cons.1 hσ with e | hσ
        · left
          rw [hop] at e
          simp only [RowOp.upd.injEq] at e
          refine ⟨ht, e.1, ?_⟩
          apply Classical.byContradiction
          intro hne
          have h1 := hran 0 (fun _ => .null)
          rw [e.2, UpdAction.set_other _ _ _ _ _ _ (fun e => hne e.symm)] at h1
          simp at h1
        · exact .inr ⟨_, List.mem_cons_self .., ht, σ, hσ, hran⟩
      · right
        refine ⟨it, by simp [hit], ?_⟩
        rcases it with ⟨fr1, t1, ops1⟩ | ⟨fr1, ch1, a1⟩
        · exact hp
        · exact pendAct_congr hrr (fun _ _ _ _ d hd tbl c c' hm _ => hlinks d hd tbl c c' hm) hp
    refine ⟨hb, by rw [hdraws]; exact Nat.le_succ_of_le h.le, h.new, h.still, ?_⟩
    by_cases ht : t = k.model.table
    · -- a row of the model itself
      have hzi : ∃ o, zs[i]? = some (old, o) := by
        have : (zs.map Prod.fst)[i]? = some old := by rw [hz1, ← ht]; exact hrow
        rw [List.getElem?_map] at this
        cases hz : zs[i]? with
        | none => rw [hz] at this; simp at this
        | some z =>
          rw [hz] at this
          simp only [Option.map_some, Option.some.injEq] at this
          exact ⟨z.2, by rw [← this]⟩
      obtain ⟨o, hzi⟩ := hzi
      generalize hnew : u.set ch0 db0 (E.rand db.draws) old = new at hap hpk hother
      let o' : Option Nat := if u.col = k.field then some db.draws else o
      obtain ⟨l1, l2, e1, e2⟩ := set_split (new, o') hzi
      have hmem : ∀ z ∈ l1 ++ (old, o) :: l2, z ∈ zs := fun z hz => e1 ▸ hz
      refine ⟨zs.set i (new, o'), ?_, ?_, ?_, ?_⟩
      · rw [List.map_set, hz1, hap]
        subst ht
        simp only [Db.setRows_same]
      · rw [e2]
        by_cases hc : u.col = k.field
        · simp only [o', if_pos hc]
          rw [e1] at hz2
          exact nodup_replace hz2 fun y hy j hj => (hz3 y (hmem y hy) j hj).2.1
        · simp only [o', if_neg hc]
          rw [e1] at hz2
          simp only [List.filterMap_append, List.filterMap_cons] at hz2 ⊢
          exact hz2
      · rw [e2, hdraws]
        intro z hz j hj
        simp only [List.mem_append, List.mem_cons] at hz
        rcases hz with hz | rfl | hz
        · have := hz3 z (hmem z (by simp [hz])) j hj
          exact ⟨this.1, Nat.lt_succ_of_lt this.2.1, this.2.2⟩
        · by_cases hc : u.col = k.field
          · simp only [o', if_pos hc, Option.some.injEq] at hj
            subst hj
            refine ⟨h.le, Nat.lt_succ_self _, ?_⟩
            show new k.field = _
            rw [← hnew, ← hc]
            simp only [UpdAction.set, Row.set, if_true]
            rw [hT.random tr htr u hu (hut.trans ht) hc]
            rfl
          · simp only [o', if_neg hc] at hj
            have := hz3 (old, o) (hmem _ (by simp)) j hj
            refine ⟨this.1, Nat.lt_succ_of_lt this.2.1, ?_⟩
            show new k.field = _
            rw [hother k.field (fun e => hc e.symm)]
            exact this.2.2
        · have := hz3 z (hmem z (by simp [hz])) j hj
          exact ⟨this.1, Nat.lt_succ_of_lt this.2.1, this.2.2⟩
      · intro j z hj hC
        by_cases hji : j = i
        · subst hji
          have hlen : j < zs.length := (List.getElem?_eq_some_iff.1 hzi).1
          rw [List.getElem?_set_self hlen] at hj
          simp only [Option.some.injEq] at hj
          subst hj
          simp only at hC ⊢
          rw [hpk ht _ (.inl rfl)] at hC
          rcases hz4 j _ hzi hC with h1 | h1
          · left
            simp only [o']
            split
            · simp
            · exact h1
          · rcases hpend j old new (hpk ht) h1 with h2 | h2
            · left; simp [o', h2.2.2]
            · exact .inr h2
        · rw [List.getElem?_set_ne (fun e => hji e.symm)] at hj
          rcases hz4 j z hj hC with h1 | h1
          · exact .inl h1
          · rcases hpend j z.1 z.1 (fun _ _ => rfl) h1 with h2 | h2
            · exact absurd h2.2.1 hji
            · exact .inr h2
    · refine ⟨zs, ?_, hz2, ?_, ?_⟩
      · rw [hz1, applyOp_rows_other E op db (fun e => ht e.symm)]
      · intro z hz j hj
        have := hz3 z hz j hj
        exact ⟨this.1, by rw [hdraws]; exact Nat.lt_succ_of_lt this.2.1, this.2.2⟩
      · intro j z hj hC
        rcases hz4 j z hj hC with h1 | h1
        · exact .inl h1
        · rcases hpend j z.1 z.1 (fun _ _ => rfl) h1 with h2 | h2
          · exact absurd h2.1 ht
          · exact .inr h2

theorem Pend.of_act {db : Db} {i : Nat} {r : Row} {it : Item} (h : PendAct k db r it) : Pend k db i r it := by
  cases it with
  | write => simp [PendAct] at h
  | act => exact h

theorem pend_rows {db db' : Db} (hr : db'.rows = db.rows) {i : Nat} {r : Row} {it : Item} (h : Pend k db i r it) :
    Pend k db' i r it := by
  cases it with
  | write => exact h
  | act => exact pendAct_congr (fun _ _ => rfl) (fun _ _ _ _ _ _ _ _ _ _ _ l hl => ⟨l, hr ▸ hl, rfl, rfl⟩) h

theorem keyInv_marks {C : Val → Prop} {start : Nat} {rest : List RowOp} {fr : Frame} {ch : Change} {a : Action} {W : List Item}
    {db : Db} (ha : ∀ u, a ≠ .update u) {ms : List Mark} (h : KeyInv E k rank s C start rest (.act fr ch a :: W) db) :
    KeyInv E k rank s C start rest W (db.addMarks ms) := by
  obtain ⟨zs, hz1, hz2, hz3, hz4⟩ := h.drawn
  refine ⟨h.base.rows (Db.addMarks_rows ..) (by simp) fun it hit => h.base.items it (List.mem_cons_of_mem _ hit), h.le, h.new, h.still,
    zs, hz1, hz2, hz3, fun i z hi hC => ?_⟩
  rcases hz4 i z hi hC with h1 | ⟨it, hit, hp⟩
  · exact .inl h1
  · right
    rcases List.mem_cons.1 hit with rfl | hit
    · cases a with
      | markValues => simp [Pend, PendAct] at hp
      | markSelect => simp [Pend, PendAct] at hp
      | update u => exact absurd rfl (ha u)
    · exact ⟨it, hit, pend_rows (Db.addMarks_rows ..) hp⟩

theorem keyInv_top (hT : KeyTracks E k) (hR : Ranked E rank) {C : Val → Prop} {start : Nat} {op : RowOp} {ops : List RowOp}
    {W : List Item} {db : Db} (hW : ∀ it ∈ W, it.actOn s.table) (h : KeyInv E k rank s C start (op :: ops) W db) :
    KeyInv E k rank s C start ops ((applyOp E s.table op db).2.flatMap (E.fired .top) ++ W) (applyOp E s.table op db).1 := by
  have hb := (keyBase (s := s) hT hR).top hW (fun _ _ => trivial) h.base
  have hst : Steady k s := by
    rcases h.still with h | h
    · exact h
    · simp at h
  obtain ⟨zs, hz1, hz2, hz3, hz4⟩ := h.drawn
  have hpend : ∀ r r', (∀ c, c = k.model.pk ∨ c ∈ k.fks → r' c = r c) → ∀ i j, (∃ it ∈ W, Pend k db i r it) →
      ∃ it ∈ (applyOp E s.table op db).2.flatMap (E.fired .top) ++ W, Pend k (applyOp E s.table op db).1 j r' it := by
    rintro r r' hrr i j ⟨it, hit, hp⟩
    refine ⟨it, List.mem_append_right _ hit, ?_⟩
    have hon := hW it hit
    rcases it with ⟨fr1, t1, ops1⟩ | ⟨fr1, ch1, a1⟩
    · exact absurd hon (by simp [Item.actOn])
    · refine pendAct_congr hrr (fun fr ch a e d hd tbl c c' hm hne l hl => ?_) hp
      simp only [Item.act.injEq] at e
      obtain ⟨rfl, rfl, rfl⟩ := e
      simp only [Item.actOn] at hon
      refine ⟨l, ?_, rfl, rfl⟩
      rw [applyOp_rows_other E op db (fun e => hne (by rw [hon, e]))]
      exact hl
  have hdraws : db.draws ≤ (applyOp E s.table op db).1.draws := by
    cases op <;> simp only [applyOp]
    · exact Nat.le_refl _
    · split <;> simp
    · split <;> exact Nat.le_refl _
  have hz3' : ∀ z ∈ zs, ∀ j, z.2 = some j → start ≤ j ∧ j < (applyOp E s.table op db).1.draws ∧ z.1 k.field = .int (E.rand j) := by
    intro z hz j hj
    have := hz3 z hz j hj
    exact ⟨this.1, by omega, this.2.2⟩
  have hz4' : ∀ z ∈ zs, C (z.1 k.model.pk) → z.2 ≠ none ∨ ∀ r', (∀ c, c = k.model.pk ∨ c ∈ k.fks → r' c = z.1 c) → ∀ j,
      ∃ it ∈ (applyOp E s.table op db).2.flatMap (E.fired .top) ++ W, Pend k (applyOp E s.table op db).1 j r' it := by
    intro z hz hC
    obtain ⟨i, hi⟩ := List.getElem?_of_mem hz
    rcases hz4 i z hi hC with h1 | h1
    · exact .inl h1
    · exact .inr fun r' hr j => hpend z.1 r' hr i j h1
  refine ⟨hb, Nat.le_trans h.le hdraws, fun ht r hr => h.new ht r (List.mem_cons_of_mem _ hr), .inl hst, ?_⟩
  have same : (applyOp E s.table op db).1.rows k.model.table = db.rows k.model.table →
      ∃ zs : List (Row × Option Nat), zs.map Prod.fst = (applyOp E s.table op db).1.rows k.model.table ∧ (zs.filterMap Prod.snd).Nodup ∧
      (∀ z ∈ zs, ∀ j, z.2 = some j → start ≤ j ∧ j < (applyOp E s.table op db).1.draws ∧ z.1 k.field = .int (E.rand j)) ∧
      ∀ i z, zs[i]? = some z → C (z.1 k.model.pk) → z.2 ≠ none ∨
        ∃ it ∈ (applyOp E s.table op db).2.flatMap (E.fired .top) ++ W, Pend k (applyOp E s.table op db).1 i z.1 it := by
    intro he
    refine ⟨zs, hz1.trans he.symm, hz2, hz3', fun i z hi hC => ?_⟩
    exact (hz4' z (List.mem_of_getElem? hi) hC).imp_right fun h => h z.1 (fun _ _ => rfl) i
  by_cases ht : k.model.table = s.table
  · cases op with
    | ins r =>
      refine ⟨zs ++ [(r, none)], ?_, ?_, ?_, ?_⟩
      · simp [applyOp, hz1, ht]
      · simpa [List.filterMap_append] using hz2
      · intro z hz j hj
        rcases List.mem_append.1 hz with hz | hz
        · exact hz3' z hz j hj
        · simp only [List.mem_singleton] at hz
          subst hz
          simp at hj
      · intro i z hi hC
        have hz := List.mem_of_getElem? hi
        rcases List.mem_append.1 hz with hz | hz
        · exact (hz4' z hz hC).imp_right fun h => h z.1 (fun _ _ => rfl) i
        · simp only [List.mem_singleton] at hz
          subst hz
          exact absurd hC (h.new ht.symm r (List.mem_cons_self ..))
    | upd i σ =>
      cases hrow : (db.rows s.table)[i]? with
      | none => exact same (by simp only [applyOp, hrow])
      | some old =>
        have hap : applyOp E s.table (.upd i σ) db =
            ({ db.setRows s.table ((db.rows s.table).set i (σ (E.rand db.draws) old)) with draws := db.draws + 1 },
              [⟨s.table, .update, old, σ (E.rand db.draws) old⟩]) := by simp only [applyOp, hrow]
        obtain ⟨o, hzi⟩ : ∃ o, zs[i]? = some (old, o) := by
          have : (zs.map Prod.fst)[i]? = some old := by rw [hz1, ht]; exact hrow
          rw [List.getElem?_map] at this
          cases hz : zs[i]? with
          | none => rw [hz] at this; simp at this
          | some z =>
            rw [hz] at this
            simp only [Option.map_some, Option.some.injEq] at this
            exact ⟨z.2, by rw [← this]⟩
        obtain ⟨l1, l2, e1, e2⟩ := set_split (σ (E.rand db.draws) old, o) hzi
        have hfix : σ (E.rand db.draws) old k.field = old k.field ∧ ∀ c ∈ k.fks, σ (E.rand db.draws) old c = old c := by
          have htop := h.base.tops _ (List.mem_cons_self ..)
          cases s with
          | insert t rs => obtain ⟨r, _, e⟩ := htop; simp at e
          | delete t w => exact absurd htop (by simp [TopOp])
          | update t w σ' =>
            obtain ⟨i', e⟩ := htop
            simp only [RowOp.upd.injEq] at e
            rw [e.2]
            exact hst ht.symm _ _
        have hpk : σ (E.rand db.draws) old k.model.pk = old k.model.pk := by
          obtain ⟨x, hw, hch⟩ := writeOk_of hT.toGround h.base.legal h.base.keys (topItem (E := E) (rank := rank) h.base.tops)
          rw [hap] at hch
          have hx : x = some (.update, old, σ (E.rand db.draws) old) := by
            rcases x with _ | ⟨e, a, b⟩
            · simp [effectChange] at hch
            · simp only [effectChange, List.cons.injEq, Change.mk.injEq, and_true, true_and] at hch
              obtain ⟨rfl, rfl, rfl⟩ := hch
              rfl
          exact hw.keep _ _ hx (k.model.table, k.model.pk) (List.mem_cons_self ..) ht
        have hkey : ∀ c, c = k.model.pk ∨ c ∈ k.fks → σ (E.rand db.draws) old c = old c := by
          rintro c (rfl | hc)
          · exact hpk
          · exact hfix.2 c hc
        refine ⟨zs.set i (σ (E.rand db.draws) old, o), ?_, ?_, ?_, ?_⟩
        · rw [List.map_set, hz1, hap, ht]
          simp only [Db.setRows_same]
        · rw [e2]
          rw [e1] at hz2
          simp only [List.filterMap_append, List.filterMap_cons] at hz2 ⊢
          exact hz2
        · intro z hz j hj
          rcases List.mem_or_eq_of_mem_set hz with hz | rfl
          · exact hz3' z hz j hj
          · have := hz3' (old, o) (List.mem_of_getElem? hzi) j hj
            refine ⟨this.1, this.2.1, ?_⟩
            rw [← this.2.2]
            exact hfix.1
        · intro j z hj hC
          by_cases hji : j = i
          · subst hji
            have hlen : j < zs.length := (List.getElem?_eq_some_iff.1 hzi).1
            rw [List.getElem?_set_self hlen] at hj
            simp only [Option.some.injEq] at hj
            subst hj
            simp only at hC ⊢
            rw [hpk] at hC
            exact (hz4' (old, o) (List.mem_of_getElem? hzi) hC).imp_right fun h => h _ hkey j
          · rw [List.getElem?_set_ne (fun e => hji e.symm)] at hj
            exact (hz4' z (List.mem_of_getElem? hj) hC).imp_right fun h => h z.1 (fun _ _ => rfl) j
    | del w =>
      cases hrow : (db.rows s.table).find? w with
      | none => exact same (by simp only [applyOp, hrow])
      | some old =>
        have hap : applyOp E s.table (.del w) db =
            (db.setRows s.table ((db.rows s.table).eraseP w), [⟨s.table, .delete, old, old⟩]) := by simp only [applyOp, hrow]
        have hsub : (zs.eraseP (w ∘ Prod.fst)).Sublist zs := List.eraseP_sublist
        refine ⟨zs.eraseP (w ∘ Prod.fst), ?_, ?_, ?_, ?_⟩
        · rw [← List.eraseP_map, hz1, hap, ht]
          simp only [Db.setRows_same]
        · exact List.Nodup.sublist (hsub.filterMap _) hz2
        · exact fun z hz => hz3' z (hsub.subset hz)
        · exact fun j z hj hC => (hz4' z (hsub.subset (List.mem_of_getElem? hj)) hC).imp_right fun h => h z.1 (fun _ _ => rfl) j
  · exact same (applyOp_rows_other E op db ht)

theorem keyInv (hT : KeyTracks E k) (hR : Ranked E rank) (C : Val → Prop) (start : Nat) :
    PhaseInvQ E (fun _ _ => True) s.table (KeyInv E k rank s C start) where
  nested := fun rest => {
    perm := by
      intro W W' db hp h
      obtain ⟨zs, hz1, hz2, hz3, hz4⟩ := h.drawn
      refine ⟨((keyBase hT hR).nested rest).perm hp h.base, h.le, h.new, h.still, zs, hz1, hz2, hz3, fun i z hi hC => ?_⟩
      exact (hz4 i z hi hC).imp_right fun ⟨it, hit, h⟩ => ⟨it, hp.mem_iff.1 hit, h⟩
    writeNil := by
      intro fr t W db h
      obtain ⟨zs, hz1, hz2, hz3, hz4⟩ := h.drawn
      refine ⟨((keyBase hT hR).nested rest).writeNil h.base, h.le, h.new, h.still, zs, hz1, hz2, hz3, fun i z hi hC => ?_⟩
      refine (hz4 i z hi hC).imp_right fun ⟨it, hit, h⟩ => ?_
      rcases List.mem_cons.1 hit with rfl | hit
      · obtain ⟨_, _, h, _⟩ := h
        simp at h
      · exact ⟨it, hit, h⟩
    writeOp := fun _ h => keyInv_nested hT hR h
    markValues := fun h => keyInv_marks (by simp) h
    markSelect := fun h => keyInv_marks (by simp) h
    update := by
      intro fr ch u W db hmy h
      obtain ⟨zs, hz1, hz2, hz3, hz4⟩ := h.drawn
      refine ⟨((keyBase hT hR).nested rest).update hmy h.base, h.le, h.new, h.still, zs, hz1, hz2, hz3, fun i z hi hC => ?_⟩
      refine (hz4 i z hi hC).imp_right fun ⟨it, hit, hp⟩ => ?_
      rcases List.mem_cons.1 hit with rfl | hit
      · obtain ⟨h1, h2, h3, _, h5⟩ := hp
        have hrow : (db.rows u.table)[i]? = some z.1 := by
          rw [h1, ← hz1, List.getElem?_map, hi]
          rfl
        have hmem : i ∈ targetsOf (db.rows u.table) (u.where_ ch db) :=
          mem_targetsOf.2 ⟨z.1, hrow, by simp [UpdAction.where_, h3, h5]⟩
        obtain ⟨l, hl, hop⟩ := writes_mem (b := E.backend) (fr := fr) (t := u.table) (List.mem_map.2 ⟨i, hmem, rfl⟩ :
          RowOp.upd i (u.set ch db) ∈ u.ops ch db)
        refine ⟨_, List.mem_append_left _ hl, h1, _, hop, fun x r => ?_⟩
        obtain ⟨tr, htr, ha, _⟩ := h.base.items _ (List.mem_cons_self ..)
        rw [← h2]
        simp only [UpdAction.set, Row.set, if_true, hT.random tr htr u ha h1 h2]
        rfl
      · exact ⟨it, List.mem_append_right _ hit, hp⟩ }
  top := fun hW _ h => keyInv_top hT hR hW h

theorem keyInv_begins (hT : KeyTracks E k) (hR : Ranked E rank) (ch0 : Change) (db0 : Db) :
    Begins E (fun c d => c = ch0 ∧ d = db0) s.table (KeyBase E k rank s) (KeyInv E k rank s (k.Concerned ch0 db0) db0.draws) := by
  have key : ∀ {fr t op ops rest W' W} {db : Db}, ItemOk E rank s (.write fr t (op :: ops)) → KeysOk k.relations db →
      LegalStmt E k.relations db s → (∀ it ∈ newActs E fr t none, True) →
      ch0 ∈ (applyOp E t op db).2 → (applyOp E t op db).1 = db0 → W' = (applyOp E t op db).2.flatMap (E.fired fr) → (∀ it ∈ W', it ∈ W) →
      KeyBase E k rank s rest W db0 → (Steady k s ∨ rest = []) → KeyInv E k rank s (k.Concerned ch0 db0) db0.draws rest W db0 := by
    intro fr t op ops rest W' W db hit hK hL _ hch hdb hW' hsub hb hst
    obtain ⟨x, hw, hx⟩ := writeOk_of hT.toGround hL hK hit
    rw [hdb] at hw
    refine ⟨hb, Nat.le_refl _, fun ht r hr hC => ?_, hst, (db0.rows k.model.table).map fun r => (r, none), ?_, ?_, ?_, ?_⟩
    · obtain ⟨⟨r0, h0, h1⟩, _⟩ := hC
      exact hb.fresh ht r hr r0 h0 h1
    · simp [List.map_map, Function.comp_def]
    · have : ((db0.rows k.model.table).map fun r => (r, (none : Option Nat))).filterMap Prod.snd = [] := by
        rw [List.filterMap_eq_nil_iff]
        intro z hz
        obtain ⟨r, _, rfl⟩ := List.mem_map.1 hz
        rfl
      rw [this]
      exact List.nodup_nil
    · intro z hz j hj
      obtain ⟨r, _, rfl⟩ := List.mem_map.1 hz
      simp at hj
    · intro i z hi hC
      right
      have hz := List.mem_of_getElem? hi
      obtain ⟨r, hr, rfl⟩ := List.mem_map.1 hz
      obtain ⟨d, hd, hcon⟩ := hC.2 r hr rfl
      obtain ⟨it, hit, hp⟩ := concerns_renews hT hw hd (hx ▸ hch) hcon
      exact ⟨it, hsub it (by rw [hW', hx]; exact hit), Pend.of_act hp⟩
  refine ⟨?_, ?_⟩
  · rintro rest fr t' op ops W db ch h hch ⟨rfl, hdb⟩
    have hb := ((keyBase (s := s) hT hR).nested rest).writeOp (fun _ _ => trivial) h
    have hst : Steady k s ∨ rest = [] := by
      rcases h.steady with h1 | h1 | h1
      · exact .inl h1
      · exact .inr h1
      · simp at h1
    rw [hdb] at hb ⊢
    exact key (h.items _ (List.mem_cons_self ..)).itemOk h.keys h.legal (fun _ _ => trivial) hch hdb rfl
      (fun it hit => by simp [hit]) hb hst
  · rintro op ops W db ch hW h hch ⟨rfl, hdb⟩
    have hb := (keyBase (s := s) hT hR).top hW (fun _ _ => trivial) h
    have hst : Steady k s ∨ ops = [] := by
      rcases h.steady with h1 | h1 | h1
      · exact .inl h1
      · simp at h1
      · right; simpa using h1.1
    rw [hdb] at hb ⊢
    exact key (topItem h.tops) h.keys h.legal (fun _ _ => trivial) hch hdb rfl
      (fun it hit => List.mem_append_left _ hit) hb hst

theorem targetsOf_length (rows : List Row) (w : Row → Bool) : (targetsOf rows w).length = (rows.filter w).length := by
  have key : ∀ n, ((List.range n).filter fun i => match rows[i]? with
      | some r => w r
      | none => false).length = ((rows.take n).filter w).length := by
    intro n
    induction n with
    | zero => rfl
    | succ n ih =>
      rw [List.range_succ, List.take_add_one, List.filter_append, List.filter_append, List.length_append, List.length_append, ih]
      cases h : rows[n]? with
      | none => simp [h]
      | some r => cases hw : w r <;> simp [h, hw]
  have := key rows.length
  rwa [List.take_length] at this

theorem keyBase_begin {db : Db} (hL : LegalStmt E k.relations db s) (hK : KeysOk k.relations db) (hS : KeyLegal k db s) :
    KeyBase E k rank s (s.ops db) [] db := by
  refine ⟨hL, hK, by simp, fun op h => topOp_of_mem h, ?_, ?_, ?_⟩
  · intro ht r hr r0 h0
    cases s with
    | insert t rs =>
      simp only [Stmt.ops, List.mem_map, RowOp.ins.injEq, exists_eq_right] at hr
      change t = _ at ht
      exact (hS ht).1 r hr r0 (ht ▸ h0)
    | update t w σ => simp [Stmt.ops] at hr
    | delete t w => simp [Stmt.ops] at hr
  · intro ht
    cases s with
    | insert t rs =>
      simp only [Stmt.ops, List.pairwise_map, RowOp.ins.injEq]
      refine (hS ht).2.imp fun h => ?_
      rintro _ _ rfl rfl
      exact h
    | update t w σ =>
      rw [Stmt.ops, List.pairwise_map]
      exact List.pairwise_of_forall (by simp)
    | delete t w =>
      rw [Stmt.ops, List.pairwise_map]
      exact List.pairwise_of_forall (by simp)
  · cases s with
    | insert t rs => exact .inl trivial
    | delete t w => exact .inl trivial
    | update t w σ =>
      by_cases ht : t = k.model.table
      · rcases hS ht with h | h
        · right; right
          refine ⟨?_, rfl⟩
          simp only [Stmt.ops, List.length_map, targetsOf_length]
          exact h
        · exact .inl fun _ => h
      · exact .inl fun h => absurd h ht

theorem nodup_draws {zs : List (Row × Option Nat)} (h : (zs.filterMap Prod.snd).Nodup) {i j : Nat} {z z' : Row × Option Nat}
    (hi : zs[i]? = some z) (hj : zs[j]? = some z') {n : Nat} (hz : z.2 = some n) (hz' : z'.2 = some n) : i = j := by
  unfold List.Nodup at h
  rw [List.pairwise_filterMap] at h
  have h := List.pairwise_iff_getElem.1 h
  obtain ⟨hi', rfl⟩ := List.getElem?_eq_some_iff.1 hi
  obtain ⟨hj', rfl⟩ := List.getElem?_eq_some_iff.1 hj
  rcases Nat.lt_trichotomy i j with hlt | hlt | hlt
  · exact absurd rfl (h i j hi' hj' hlt n hz n hz')
  · exact hlt
  · exact absurd rfl (h j i hj' hi' hlt n hz' n hz)
end

end Denorm
