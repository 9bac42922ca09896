import Verif.Lemmas.KeyInv
/-!
# Keys of unrelated instances stay
-/
namespace Denorm

/-- The side of the change a trigger may look at. -/
def Side.ok : Side → Event → Prop
  | .new, ev => ev ≠ .delete
  | .old, ev => ev ≠ .insert

theorem Side.ok_mem {s : Side} {ch : Change} (h : s.ok ch.event) : ch.side s ∈ ch.versions := by
  unfold Change.versions
  cases s <;> cases he : ch.event <;> simp_all [Side.ok, Change.side]

/-- Where an UPDATE of the key column comes from. -/
def KeyShape (d : Dep) (t : TableName) (ev : Event) (key : Key) : Prop :=
  match d.rel with
  | .forward f => t = d.other.table ∧ ∃ s, s.ok ev ∧ key = .eq f.column s d.other.pk
  | .backward f => t = d.other.table ∧ ∃ s, s.ok ev ∧ key = .eq d.this.pk s f.column
  | .forwardM2M (.generic g) => t = g.remoteTable ∧ ∃ s, s.ok ev ∧ key = .eq d.this.pk s g.objectIdField
  | .backwardM2M (.generic _) => False
  | .forwardM2M (.m2m m) => (t = m.through ∧ ∃ s, s.ok ev ∧ key = .eq d.this.pk s m.colName) ∨
      (t = d.other.table ∧ ev = .update ∧ key = .inSelect d.this.pk m.colName m.through m.revName .new d.other.pk)
  | .backwardM2M (.m2m m) => (t = m.through ∧ ∃ s, s.ok ev ∧ key = .eq d.this.pk s m.revName) ∨
      (t = d.other.table ∧ ev = .update ∧ key = .inSelect d.this.pk m.revName m.through m.colName .new d.other.pk)

structure KeySource (E : Engine) (k : KeyField) : Prop where
  shape : ∀ tr ∈ E.triggers, ∀ u, Action.update u ∈ tr.actions → u.table = k.model.table → u.col = k.field →
    ∃ d ∈ k.deps, KeyShape d.dep tr.table tr.event u.key

section
variable {E : Engine} {k : KeyField} {rank : String → Nat} {s : Stmt} {v : Val}

structure KeyGround (E : Engine) (k : KeyField) (rank : String → Nat) (s : Stmt) (ops : List RowOp) (W : List Item) (db : Db) : Prop where
  legal : LegalStmt E k.relations db s
  keys : KeysOk k.relations db
  items : ∀ it ∈ W, NestOk E rank it
  tops : ∀ op ∈ ops, TopOp s op

theorem KeyGround.rows {ops : List RowOp} {W : List Item} {db db' : Db} (h : KeyGround E k rank s ops W db) (hr : db'.rows = db.rows)
    {W' : List Item} (hW : ∀ it ∈ W', NestOk E rank it) : KeyGround E k rank s ops W' db' :=
  ⟨TrackInv.of_rows hr h.legal, fun p hp r hrm => h.keys p hp r (hr ▸ hrm), hW, h.tops⟩

theorem keyGround (hT : KeyTracks E k) (hR : Ranked E rank) : PhaseInvQ E (fun _ _ => True) s.table (KeyGround E k rank s) where
  nested := fun rest => {
    perm := fun hp h => h.rows rfl fun it hit => h.items it (hp.mem_iff.2 hit)
    writeNil := fun h => h.rows rfl fun it hit => h.items it (List.mem_cons_of_mem _ hit)
    writeOp := by
      intro fr t op ops W db _ h
      have hn := h.items _ (List.mem_cons_self ..)
      have hit : ItemOk E rank s _ := hn.itemOk
      obtain ⟨x, hw, hch⟩ := writeOk_of hT.toGround h.legal h.keys hit
      refine ⟨legal_step hT.toGround h.legal hit, keysOk_step hw, ?_, h.tops⟩
      intro it hi
      rcases List.mem_cons.1 hi with rfl | hi
      · obtain ⟨tr, htr, u, ch0, db0, h1, h2, h3, h4⟩ := hn
        exact ⟨tr, htr, u, ch0, db0, h1, h2, fun o ho => h3 o (List.mem_cons_of_mem _ ho), h4⟩
      · rcases List.mem_append.1 hi with hi | hi
        · exact nestOk_fired hit it hi
        · exact h.items it (List.mem_cons_of_mem _ hi)
    markValues := fun h => h.rows (Db.addMarks_rows ..) fun it hit => h.items it (List.mem_cons_of_mem _ hit)
    markSelect := fun h => h.rows (Db.addMarks_rows ..) fun it hit => h.items it (List.mem_cons_of_mem _ hit)
    update := by
      intro fr ch u W db _ h
      refine h.rows rfl fun it hi => ?_
      rcases List.mem_append.1 hi with hi | hi
      · exact nestOk_update hR (h.items _ (List.mem_cons_self ..)) it hi
      · exact h.items it (List.mem_cons_of_mem _ hi) }
  top := by
    intro op ops W db hW _ h
    have hit : ItemOk E rank s (.write .top s.table (op :: ops)) := topItem h.tops
    obtain ⟨x, hw, hch⟩ := writeOk_of hT.toGround h.legal h.keys hit
    refine ⟨legal_step hT.toGround h.legal hit, keysOk_step hw, ?_, fun o ho => h.tops o (List.mem_cons_of_mem _ ho)⟩
    intro it hi
    rcases List.mem_append.1 hi with hi | hi
    · exact nestOk_fired hit it hi
    · exact h.items it hi

/-- The item leaves the key of instance `v` alone. -/
def KeyCalm (k : KeyField) (v : Val) (db : Db) : Item → Prop
  | .write _ t ops => t = k.model.table → ∀ i σ, .upd i σ ∈ ops →
      (∀ r, (db.rows k.model.table)[i]? = some r → r k.model.pk ≠ v) ∨ ∀ x r, σ x r k.field = r k.field
  | .act _ ch (.update u) => u.table = k.model.table → u.col = k.field →
      StableKey k ch u.key ∧ ∀ r ∈ db.rows k.model.table, r k.model.pk = v → u.key.matches ch db r = false
  | _ => True

/-- The row operation leaves the key and the ForeignKeys of instance `v` alone and does not create it. -/
def SpareOp (k : KeyField) (v : Val) (db : Db) : RowOp → Prop
  | .ins r => r k.model.pk ≠ v
  | .upd i σ => (∀ r, (db.rows k.model.table)[i]? = some r → r k.model.pk ≠ v) ∨
      ∀ x r, σ x r k.field = r k.field ∧ ∀ c ∈ k.fks, σ x r c = r c
  | .del _ => True

/-- Instance `v` has the key it had in `db0`, and nothing pending will change that. -/
structure KeepInv (E : Engine) (k : KeyField) (rank : String → Nat) (s : Stmt) (v : Val) (db0 : Db) (ops : List RowOp)
    (W : List Item) (db : Db) : Prop where
  ground : KeyGround E k rank s ops W db
  kept : ∀ r ∈ db.rows k.model.table, r k.model.pk = v → ∃ r0 ∈ db0.rows k.model.table, r0 k.model.pk = v ∧ r k.field = r0 k.field
  calm : ∀ it ∈ W, KeyCalm k v db it
  spare : s.table = k.model.table → ∀ op ∈ ops, SpareOp k v db op

/-- Rows of the instance after a write were there before. -/
def Back (k : KeyField) (v : Val) (db db' : Db) : Prop :=
  ∀ r' ∈ db'.rows k.model.table, r' k.model.pk = v → ∃ r ∈ db.rows k.model.table, r k.model.pk = v ∧ r' k.field = r k.field ∧
    ∀ c ∈ k.fks, r' c = r c

/-- Positions keep their primary keys. -/
def KeepPos (k : KeyField) (db db' : Db) : Prop :=
  ∀ (i : Nat) (r' : Row), (db'.rows k.model.table)[i]? = some r' → ∃ r : Row, (db.rows k.model.table)[i]? = some r ∧ r' k.model.pk = r k.model.pk

theorem calm_act {db db' : Db} {fr : Frame} {ch : Change} {a : Action} (hb : Back k v db db')
    (hl : ∀ d ∈ k.deps, ∀ tbl c c', d.dep.m2mTable = some (tbl, c, c') → ch.table ≠ tbl →
      ∀ l' ∈ db'.rows tbl, ∃ l ∈ db.rows tbl, l' c = l c ∧ l' c' = l c') (h : KeyCalm k v db (.act fr ch a)) :
    KeyCalm k v db' (.act fr ch a) := by
  cases a with
  | markValues => trivial
  | markSelect => trivial
  | update u =>
    intro h1 h2
    obtain ⟨h3, h4⟩ := h h1 h2
    refine ⟨h3, fun r' hr' hv => ?_⟩
    obtain ⟨r, hr, hrv, _, hfk⟩ := hb r' hr' hv
    have h5 := h4 r hr hrv
    cases hu : u.key with
    | eq c s0 c0 =>
      rw [hu] at h3 h5
      simp only [Key.matches] at h5 ⊢
      rcases h3 with rfl | h3
      · rw [hv, ← hrv]; exact h5
      · rw [hfk c h3]; exact h5
    | inSelect c sel tbl wk s0 c0 =>
      rw [hu] at h3 h5
      obtain ⟨e1, e2, d, hd, hm⟩ := h3
      simp only [Key.matches, List.any_eq_false, Bool.and_eq_true, not_and] at h5 ⊢
      intro l' hl'
      obtain ⟨l, hlm, e3, e4⟩ := hl d hd tbl sel wk hm e2 l' hl'
      rw [e3, e4, e1, hv, ← hrv, ← e1]
      exact h5 l hlm

/-- A change that does not touch the instance queues nothing against it. -/
theorem calm_fired (hT : KeyTracks E k) (hS : KeySource E k) {fr : Frame} {ch : Change} {db : Db} (hQ : ¬ k.Touches ch db v) :
    ∀ it ∈ E.fired fr ch, KeyCalm k v db it := by
  intro it hit
  obtain ⟨tr, htr, hent, a, ha, rfl⟩ := mem_fired.1 hit
  simp only [Engine.enters, Bool.and_eq_true, decide_eq_true_eq] at hent
  obtain ⟨⟨⟨ht, he⟩, _⟩, _⟩ := hent
  cases a with
  | markValues => trivial
  | markSelect => trivial
  | update u =>
    intro h1 h2
    obtain ⟨d, hd, hsh⟩ := hS.shape tr htr u ha h1 h2
    have hth : d.dep.this = k.model := hT.this d hd
    rw [ht, he] at hsh
    have flip : ∀ {a b : Val}, Val.sqlEq a b = true → Val.sqlEq b a = true := by
      intro a b hab
      rw [Val.sqlEq_iff] at hab ⊢
      exact ⟨hab.1.symm, fun h0 => hab.2 (hab.1.trans h0)⟩
    have no : ∀ {b : Bool} , (b = true → False) → b = false := by intro b h; cases b <;> simp_all
    have link : ∀ tbl c c', d.dep.m2mTable = some (tbl, c, c') → ch.table = tbl → ∀ s0 : Side, s0.ok ch.event →
        ∀ r ∈ db.rows k.model.table, r k.model.pk = v → Val.sqlEq (r d.dep.this.pk) (ch.side s0 c) = false := by
      intro tbl c c' hm htb s0 hok r hr hv
      refine no fun hp => hQ ⟨r, hr, hv, d, hd, .inr ⟨(tbl, c, c'), hm, htb, ch.side s0, Side.ok_mem hok, flip hp⟩⟩
    have sel : ∀ tbl c c', d.dep.m2mTable = some (tbl, c, c') → ch.table = d.dep.other.table → ch.event = .update →
        (∀ r o, (∃ l ∈ db.rows tbl, Val.sqlEq (l c) (r d.dep.this.pk) = true ∧ Val.sqlEq (l c') (o d.dep.other.pk) = true) →
          d.dep.mayRelate db r o) → d.dep.otherTable = d.dep.other.table →
        StableKey k ch (.inSelect d.dep.this.pk c tbl c' .new d.dep.other.pk) ∧
        ∀ r ∈ db.rows k.model.table, r k.model.pk = v →
          (Key.inSelect d.dep.this.pk c tbl c' .new d.dep.other.pk).matches ch db r = false := by
      intro tbl c c' hm htb hev hrel hot
      refine ⟨⟨by rw [hth], fun e => hT.through d hd tbl c c' hm (by rw [← e, htb]), d, hd, hm⟩, fun r hr hv => no fun hp => ?_⟩
      simp only [Key.matches, List.any_eq_true, Bool.and_eq_true] at hp
      obtain ⟨l, hl, h3, h4⟩ := hp
      exact hQ ⟨r, hr, hv, d, hd, .inl ⟨by rw [hot, htb], ch.new, by simp [Change.versions, hev], hrel r _ ⟨l, hl, flip h4, h3⟩⟩⟩
    unfold KeyShape at hsh
    rcases hrel : d.dep.rel with f | f | (m | g) | (m | g) <;> rw [hrel] at hsh <;> simp only at hsh
    · obtain ⟨htb, s0, hok, hk⟩ := hsh
      rw [hk]
      refine ⟨.inr (List.mem_flatMap.2 ⟨d, hd, by simp [Dep.ownKeys, hrel]⟩), fun r hr hv => no fun hp => ?_⟩
      exact hQ ⟨r, hr, hv, d, hd, .inl ⟨by simp [Dep.otherTable, hrel, htb], ch.side s0, Side.ok_mem hok,
        by simpa [Dep.mayRelate, Dep.relatedTo, hrel, Key.matches] using hp⟩⟩
    · obtain ⟨htb, s0, hok, hk⟩ := hsh
      rw [hk]
      refine ⟨.inl (by rw [hth]), fun r hr hv => no fun hp => ?_⟩
      exact hQ ⟨r, hr, hv, d, hd, .inl ⟨by simp [Dep.otherTable, hrel, htb], ch.side s0, Side.ok_mem hok,
        by simpa [Dep.mayRelate, Dep.relatedTo, hrel] using flip hp⟩⟩
    · have hm : d.dep.m2mTable = some (m.through, m.colName, m.revName) := by simp [Dep.m2mTable, hrel]
      rcases hsh with ⟨htb, s0, hok, hk⟩ | ⟨htb, hev, hk⟩
      · rw [hk]
        exact ⟨.inl (by rw [hth]), link _ _ _ hm htb s0 hok⟩
      · rw [hk]
        exact sel _ _ _ hm htb hev (fun r o h => by simpa [Dep.mayRelate, Dep.relatedTo, hrel] using h) (by simp [Dep.otherTable, hrel])
    · obtain ⟨htb, s0, hok, hk⟩ := hsh
      rw [hk]
      refine ⟨.inl (by rw [hth]), fun r hr hv => no fun hp => ?_⟩
      exact hQ ⟨r, hr, hv, d, hd, .inl ⟨by simp [Dep.otherTable, hrel, htb], ch.side s0, Side.ok_mem hok,
        by simpa [Dep.mayRelate, hrel] using flip hp⟩⟩
    · have hm : d.dep.m2mTable = some (m.through, m.revName, m.colName) := by simp [Dep.m2mTable, hrel]
      rcases hsh with ⟨htb, s0, hok, hk⟩ | ⟨htb, hev, hk⟩
      · rw [hk]
        exact ⟨.inl (by rw [hth]), link _ _ _ hm htb s0 hok⟩
      · rw [hk]
        exact sel _ _ _ hm htb hev (fun r o h => by simpa [Dep.mayRelate, Dep.relatedTo, hrel] using h) (by simp [Dep.otherTable, hrel])

theorem keepInv_nested (hT : KeyTracks E k) (hS : KeySource E k) (hR : Ranked E rank) {db0 : Db} {rest : List RowOp} {fr : Frame}
    {t : TableName} {op : RowOp} {ops : List RowOp} {W : List Item} {db : Db}
    (hQ : ∀ ch ∈ (applyOp E t op db).2, ¬ k.Touches ch (applyOp E t op db).1 v)
    (h : KeepInv E k rank s v db0 rest (.write fr t (op :: ops) :: W) db) :
    KeepInv E k rank s v db0 rest (.write fr t ops :: ((applyOp E t op db).2.flatMap (E.fired fr) ++ W)) (applyOp E t op db).1 := by
  have hg := ((keyGround (s := s) hT hR).nested rest).writeOp (fun _ _ => trivial) h.ground
  obtain ⟨tr, htr, u, ch0, dbu, hu, hut, hops, _⟩ := h.ground.items _ (List.mem_cons_self ..)
  obtain ⟨i, hop⟩ := hops op (List.mem_cons_self ..)
  have hman : Managed E t u.col := ⟨tr, htr, u, hu, hut, rfl⟩
  have hcalm := h.calm _ (List.mem_cons_self ..)
  cases hrow : (db.rows t)[i]? with
  | none =>
    have hap : applyOp E t op db = (db, []) := by simp only [hop, applyOp, hrow]
    rw [hap] at hg ⊢
    refine ⟨hg, h.kept, fun it hit => ?_, h.spare⟩
    rcases List.mem_cons.1 hit with rfl | hit
    · exact fun ht i σ hi => hcalm ht i σ (List.mem_cons_of_mem _ hi)
    · exact h.calm it (List.mem_cons_of_mem _ (by simpa using hit))
  | some old =>
    have hap : applyOp E t op db =
        ({ db.setRows t ((db.rows t).set i (u.set ch0 dbu (E.rand db.draws) old)) with draws := db.draws + 1 },
          [⟨t, .update, old, u.set ch0 dbu (E.rand db.draws) old⟩]) := by simp only [hop, applyOp, hrow]
    have hother : ∀ c, c ≠ u.col → u.set ch0 dbu (E.rand db.draws) old c = old c := fun c hc => UpdAction.set_other _ _ _ _ _ _ hc
    have hkey : t = k.model.table → ∀ c, c = k.model.pk ∨ c ∈ k.fks → u.set ch0 dbu (E.rand db.draws) old c = old c := by
      intro ht c hc
      refine hother c fun e => ?_
      subst e ht
      rcases hc with hc | hc
      · exact hT.pks (k.model.table, k.model.pk) (List.mem_cons_self ..) (hc ▸ hman)
      · exact hT.fks _ hc hman
    have hpos : KeepPos k db (applyOp E t op db).1 := by
      intro j r' hj
      by_cases ht : t = k.model.table
      · subst ht
        rw [hap] at hj
        simp only [Db.setRows_same] at hj
        by_cases hji : j = i
        · subst hji
          rw [List.getElem?_set_self (List.getElem?_eq_some_iff.1 hrow).1] at hj
          simp only [Option.some.injEq] at hj
          exact ⟨old, hrow, by rw [← hj]; exact hkey rfl _ (.inl rfl)⟩
        · rw [List.getElem?_set_ne (fun e => hji e.symm)] at hj
          exact ⟨r', hj, rfl⟩
      · rw [applyOp_rows_other E op db (fun e => ht e.symm)] at hj
        exact ⟨r', hj, rfl⟩
    have hback : Back k v db (applyOp E t op db).1 := by
      intro r' hr' hv
      by_cases ht : t = k.model.table
      · subst ht
        rw [hap] at hr'
        simp only [Db.setRows_same] at hr'
        rcases List.mem_or_eq_of_mem_set hr' with hr' | rfl
        · exact ⟨r', hr', hv, rfl, fun _ _ => rfl⟩
        · rw [hkey rfl _ (.inl rfl)] at hv
          refine ⟨old, List.mem_of_getElem? hrow, hv, ?_, fun c hc => hkey rfl c (.inr hc)⟩
          rcases hcalm rfl i _ (by rw [← hop]; exact List.mem_cons_self ..) with h1 | h1
          · exact absurd hv (h1 old hrow)
          · exact h1 _ _
      · rw [applyOp_rows_other E op db (fun e => ht e.symm)] at hr'
        exact ⟨r', hr', hv, rfl, fun _ _ => rfl⟩
    have hlinks : ∀ d ∈ k.deps, ∀ tbl c c', d.dep.m2mTable = some (tbl, c, c') → ∀ l' ∈ (applyOp E t op db).1.rows tbl,
        ∃ l ∈ db.rows tbl, l' c = l c ∧ l' c' = l c' := by
      intro d hd tbl c c' hm l hl
      by_cases htt : tbl = t
      · subst htt
        rw [hap] at hl
        simp only [Db.setRows_same] at hl
        rcases List.mem_or_eq_of_mem_set hl with hl | rfl
        · exact ⟨l, hl, rfl, rfl⟩
        · refine ⟨old, List.mem_of_getElem? hrow, hother c fun e => ?_, hother c' fun e => ?_⟩
          · exact hT.linkOwn d hd _ _ _ hm (e ▸ hman)
          · exact hT.linkCol d hd _ _ _ hm (e ▸ hman)
      · rw [applyOp_rows_other E op db htt] at hl
        exact ⟨l, hl, rfl, rfl⟩
    have posNe : ∀ j : Nat, (∀ r : Row, (db.rows k.model.table)[j]? = some r → r k.model.pk ≠ v) →
        ∀ r : Row, ((applyOp E t op db).1.rows k.model.table)[j]? = some r → r k.model.pk ≠ v := by
      intro j hj r hr
      obtain ⟨r0, h0, h1⟩ := hpos j r hr
      rw [h1]
      exact hj r0 h0
    refine ⟨hg, fun r' hr' hv => ?_, fun it hit => ?_, fun ht o ho => ?_⟩
    · obtain ⟨r, hr, hrv, hf, _⟩ := hback r' hr' hv
      obtain ⟨r0, h1, h2, h3⟩ := h.kept r hr hrv
      exact ⟨r0, h1, h2, hf.trans h3⟩
    · have calmW : ∀ fr' t' ops', KeyCalm k v db (.write fr' t' ops') → KeyCalm k v (applyOp E t op db).1 (.write fr' t' ops') := by
        intro fr' t' ops' hc ht' j σ hj
        rcases hc ht' j σ hj with h1 | h1
        · exact .inl (posNe j h1)
        · exact .inr h1
      rcases List.mem_cons.1 hit with rfl | hit
      · exact calmW fr t ops fun ht j σ hj => hcalm ht j σ (List.mem_cons_of_mem _ hj)
      · rcases List.mem_append.1 hit with hit | hit
        · obtain ⟨ch, hch, hit⟩ := List.mem_flatMap.1 hit
          exact calm_fired hT hS (hQ ch hch) it hit
        · have hc := h.calm it (List.mem_cons_of_mem _ hit)
          rcases it with ⟨fr1, t1, ops1⟩ | ⟨fr1, ch1, a1⟩
          · exact calmW _ _ _ hc
          · exact calm_act hback (fun d hd tbl c c' hm _ => hlinks d hd tbl c c' hm) hc
    · have := h.spare ht o ho
      cases o with
      | ins r => exact this
      | upd j σ => exact this.imp_left (posNe j)
      | del w => trivial

theorem keepInv_top (hT : KeyTracks E k) (hS : KeySource E k) (hR : Ranked E rank) {db0 : Db} {op : RowOp} {ops : List RowOp}
    {W : List Item} {db : Db} (hW : ∀ it ∈ W, it.actOn s.table)
    (hQ : ∀ ch ∈ (applyOp E s.table op db).2, ¬ k.Touches ch (applyOp E s.table op db).1 v)
    (h : KeepInv E k rank s v db0 (op :: ops) W db) :
    KeepInv E k rank s v db0 ops ((applyOp E s.table op db).2.flatMap (E.fired .top) ++ W) (applyOp E s.table op db).1 := by
  have hg := (keyGround (s := s) hT hR).top hW (fun _ _ => trivial) h.ground
  have hitem : ItemOk E rank s (.write .top s.table (op :: ops)) := topItem h.ground.tops
  obtain ⟨x, hw, hch⟩ := writeOk_of hT.toGround h.ground.legal h.ground.keys hitem
  have hpk : ∀ i σ old, op = .upd i σ → s.table = k.model.table → (db.rows s.table)[i]? = some old →
      σ (E.rand db.draws) old k.model.pk = old k.model.pk := by
    intro i σ old hop ht hrow
    have hap : (applyOp E s.table op db).2 = [⟨s.table, .update, old, σ (E.rand db.draws) old⟩] := by simp only [hop, applyOp, hrow]
    rw [hap] at hch
    have hx : x = some (.update, old, σ (E.rand db.draws) old) := by
      rcases x with _ | ⟨e, a, b⟩
      · simp [effectChange] at hch
      · simp only [effectChange, List.cons.injEq, Change.mk.injEq, and_true, true_and] at hch
        obtain ⟨rfl, rfl, rfl⟩ := hch
        rfl
    exact hw.keep _ _ hx (k.model.table, k.model.pk) (List.mem_cons_self ..) ht.symm
  have hback : Back k v db (applyOp E s.table op db).1 := by
    intro r' hr' hv
    by_cases ht : s.table = k.model.table
    · have hsp := h.spare ht op (List.mem_cons_self ..)
      cases op with
      | ins r =>
        simp only [applyOp, ← ht, Db.setRows_same, List.mem_append, List.mem_singleton] at hr'
        rcases hr' with hr' | rfl
        · exact ⟨r', ht ▸ hr', hv, rfl, fun _ _ => rfl⟩
        · exact absurd hv hsp
      | upd i σ =>
        cases hrow : (db.rows s.table)[i]? with
        | none =>
          simp only [applyOp, hrow] at hr'
          exact ⟨r', hr', hv, rfl, fun _ _ => rfl⟩
        | some old =>
          simp only [applyOp, hrow, ← ht, Db.setRows_same] at hr'
          rcases List.mem_or_eq_of_mem_set hr' with hr' | rfl
          · exact ⟨r', ht ▸ hr', hv, rfl, fun _ _ => rfl⟩
          · rw [hpk i σ old rfl ht hrow] at hv
            rcases hsp with hsp | hsp
            · exact absurd hv (hsp old (ht ▸ hrow))
            · exact ⟨old, ht ▸ List.mem_of_getElem? hrow, hv, (hsp _ _).1, (hsp _ _).2⟩
      | del w =>
        cases hrow : (db.rows s.table).find? w with
        | none =>
          simp only [applyOp, hrow] at hr'
          exact ⟨r', hr', hv, rfl, fun _ _ => rfl⟩
        | some old =>
          simp only [applyOp, hrow, ← ht, Db.setRows_same] at hr'
          exact ⟨r', ht ▸ List.mem_of_mem_eraseP hr', hv, rfl, fun _ _ => rfl⟩
    · rw [applyOp_rows_other E op db (fun e => ht e.symm)] at hr'
      exact ⟨r', hr', hv, rfl, fun _ _ => rfl⟩
  refine ⟨hg, fun r' hr' hv => ?_, fun it hit => ?_, fun ht o ho => ?_⟩
  · obtain ⟨r, hr, hrv, hf, _⟩ := hback r' hr' hv
    obtain ⟨r0, h1, h2, h3⟩ := h.kept r hr hrv
    exact ⟨r0, h1, h2, hf.trans h3⟩
  · rcases List.mem_append.1 hit with hit | hit
    · obtain ⟨ch, hch, hit⟩ := List.mem_flatMap.1 hit
      exact calm_fired hT hS (hQ ch hch) it hit
    · have hc := h.calm it hit
      have hon := hW it hit
      rcases it with ⟨fr1, t1, ops1⟩ | ⟨fr1, ch1, a1⟩
      · exact absurd hon (by simp [Item.actOn])
      · refine calm_act hback (fun d hd tbl c c' hm hne l hl => ⟨l, ?_, rfl, rfl⟩) hc
        simp only [Item.actOn] at hon
        rw [applyOp_rows_other E op db (fun e => hne (by rw [hon, e]))] at hl
        exact hl
  · have hso := h.spare ht o (List.mem_cons_of_mem _ ho)
    cases o with
    | ins r => exact hso
    | del w => trivial
    | upd j σ =>
      rcases hso with hso | hso
      · left
        intro r' hr'
        have h1 := h.ground.tops _ (List.mem_cons_of_mem _ ho)
        have h2 := h.ground.tops op (List.mem_cons_self ..)
        have : ∃ i, op = .upd i σ := by
          cases s with
          | insert t rs => obtain ⟨r, _, e⟩ := h1; simp at e
          | delete t w => simp [TopOp] at h1
          | update t w σ' =>
            obtain ⟨i', e⟩ := h1
            simp only [RowOp.upd.injEq] at e
            obtain ⟨i, e'⟩ := h2
            exact ⟨i, by rw [e', e.2]⟩
        obtain ⟨i, hop⟩ := this
        cases hrow : (db.rows s.table)[i]? with
        | none =>
          simp only [hop, applyOp, hrow] at hr'
          exact hso r' hr'
        | some old =>
          simp only [hop, applyOp, hrow, ← ht, Db.setRows_same] at hr'
          rw [← ht] at hso
          by_cases hji : j = i
          · subst hji
            rw [List.getElem?_set_self (List.getElem?_eq_some_iff.1 hrow).1] at hr'
            simp only [Option.some.injEq] at hr'
            rw [← hr', hpk j σ old hop ht hrow]
            exact hso old hrow
          · rw [List.getElem?_set_ne (fun e => hji e.symm)] at hr'
            exact hso r' hr'
      · exact .inr hso

theorem calm_rows {db db' : Db} (hr : db'.rows = db.rows) {it : Item} (h : KeyCalm k v db it) : KeyCalm k v db' it := by
  rcases it with ⟨fr, t, ops⟩ | ⟨fr, ch, a⟩
  · intro ht i σ hi
    rw [hr]
    exact h ht i σ hi
  · exact calm_act (fun r hm hv => ⟨r, hr ▸ hm, hv, rfl, fun _ _ => rfl⟩) (fun _ _ _ _ _ _ _ l hl => ⟨l, hr ▸ hl, rfl, rfl⟩) h

theorem KeepInv.rows {db0 : Db} {ops : List RowOp} {W W' : List Item} {db db' : Db} (h : KeepInv E k rank s v db0 ops W db)
    (hr : db'.rows = db.rows) (hg : KeyGround E k rank s ops W' db') (hc : ∀ it ∈ W', KeyCalm k v db it) :
    KeepInv E k rank s v db0 ops W' db' := by
  refine ⟨hg, fun r hm => h.kept r (hr ▸ hm), fun it hit => calm_rows hr (hc it hit), fun ht o ho => ?_⟩
  have := h.spare ht o ho
  cases o with
  | ins r => exact this
  | del w => trivial
  | upd j σ => simp only [SpareOp, hr]; exact this

theorem keepInv (hT : KeyTracks E k) (hS : KeySource E k) (hR : Ranked E rank) (db0 : Db) :
    PhaseInvQ E (fun ch db => ¬ k.Touches ch db v) s.table (KeepInv E k rank s v db0) where
  nested := fun rest => {
    perm := fun hp h => h.rows rfl (((keyGround hT hR).nested rest).perm hp h.ground) fun it hit => h.calm it (hp.mem_iff.2 hit)
    writeNil := fun h => h.rows rfl (((keyGround hT hR).nested rest).writeNil h.ground) fun it hit => h.calm it (List.mem_cons_of_mem _ hit)
    writeOp := fun hQ h => keepInv_nested hT hS hR hQ h
    markValues := fun h => h.rows (Db.addMarks_rows ..) (((keyGround hT hR).nested rest).markValues h.ground)
      fun it hit => h.calm it (List.mem_cons_of_mem _ hit)
    markSelect := fun h => h.rows (Db.addMarks_rows ..) (((keyGround hT hR).nested rest).markSelect h.ground)
      fun it hit => h.calm it (List.mem_cons_of_mem _ hit)
    update := by
      intro fr ch u W db hmy h
      refine h.rows rfl (((keyGround hT hR).nested rest).update hmy h.ground) fun it hit => ?_
      rcases List.mem_append.1 hit with hit | hit
      · obtain ⟨l, rfl, hl⟩ := mem_writes hit
        intro ht i σ hi
        obtain ⟨i', hi', e⟩ := List.mem_map.1 (hl _ hi)
        simp only [RowOp.upd.injEq] at e
        obtain ⟨rfl, rfl⟩ := e
        by_cases hc : u.col = k.field
        · left
          intro r hr hv
          obtain ⟨_, h2⟩ := h.calm _ (List.mem_cons_self ..) ht hc
          obtain ⟨r1, h3, h4⟩ := mem_targetsOf.1 hi'
          rw [ht, hr] at h3
          simp only [Option.some.injEq] at h3
          subst h3
          simp only [UpdAction.where_, Bool.and_eq_true] at h4
          rw [h2 r (List.mem_of_getElem? hr) hv] at h4
          simp at h4
        · exact .inr fun x r => UpdAction.set_other _ _ _ _ _ _ fun e => hc e.symm
      · exact h.calm it (List.mem_cons_of_mem _ hit) }
  top := fun hW hQ h => keepInv_top hT hS hR hW hQ h

theorem keepInv_begin {db : Db} (hL : LegalStmt E k.relations db s) (hK : KeysOk k.relations db) (hS : k.Spares v db s) :
    KeepInv E k rank s v db (s.ops db) [] db := by
  refine ⟨⟨hL, hK, by simp, fun op h => topOp_of_mem h⟩, fun r hr hv => ⟨r, hr, hv, rfl⟩, by simp, fun ht op hop => ?_⟩
  cases s with
  | insert t rs =>
    simp only [Stmt.ops, List.mem_map] at hop
    obtain ⟨r, hr, rfl⟩ := hop
    exact hS ht r hr
  | delete t w =>
    simp only [Stmt.ops, List.mem_map] at hop
    obtain ⟨_, _, rfl⟩ := hop
    trivial
  | update t w σ =>
    simp only [Stmt.ops, List.mem_map] at hop
    obtain ⟨i, hi, rfl⟩ := hop
    refine (hS ht).imp_left fun h1 r hr => ?_
    obtain ⟨r1, h2, h3⟩ := mem_targetsOf.1 hi
    change t = _ at ht
    rw [ht, hr] at h2
    simp only [Option.some.injEq] at h2
    subst h2
    exact h1 r (ht ▸ List.mem_of_getElem? hr) h3
end

end Denorm
