import Verif.Lemmas.Aggregate
/-!
# The aggregate invariant holds through every statement
-/
namespace Denorm

/-- Row `o` of the related table points to the instance with primary key `k`. -/
def AggDenorm.Refs (a : AggDenorm) (o : Row) (k : Val) : Prop := Val.sqlEq (o a.fk.column) k = true

theorem share_unref {a : AggDenorm} {o : Row} {k : Val} (h : ¬ a.Refs o k) : a.share k o = 0 := by
  unfold AggDenorm.share
  rw [if_neg]
  intro hs
  exact h (Val.sqlEq_iff.2 ⟨hs.1, by rw [hs.1]; exact hs.2.1⟩)

theorem total_unref {a : AggDenorm} {db : Db} {k : Val} (h : ∀ o ∈ db.rows a.related.table, ¬ a.Refs o k) : a.total db k = 0 := by
  rw [total_eq]
  have : ∀ l : List Row, (∀ o ∈ l, ¬ a.Refs o k) → (l.map (a.share k)).sum = 0 := by
    intro l
    induction l with
    | nil => intro _; rfl
    | cons o l ih =>
      intro h
      simp [share_unref (h o (List.mem_cons_self ..)), ih fun o ho => h o (List.mem_cons_of_mem _ ho)]
  exact this _ h

structure AggInv (E : Engine) (a : AggDenorm) (S : List (TableName × Col)) (rank : String → Nat) (s : Stmt) (ops : List RowOp)
    (W : List Item) (db : Db) : Prop where
  items : ∀ it ∈ W, AggItem E rank S it
  ints : ∀ t, ∀ r ∈ db.rows t, IntRow S t r
  sums : ∀ i r, (db.rows a.model.table)[i]? = some r → ∃ v, r a.fieldname = .int v ∧ v + a.effs i (r a.model.pk) W = a.total db (r a.model.pk)
  tops : ∀ op ∈ ops, TopOp s op
  fresh : s.table = a.model.table → ∀ r, .ins r ∈ ops → r a.fieldname = .int 0 ∧ (∀ o ∈ db.rows a.related.table, ¬ a.Refs o (r a.model.pk)) ∧
    ∀ fr ch x, .act fr ch x ∈ W → a.actEff ch (r a.model.pk) x = 0
  pair : s.table = a.model.table → s.table = a.related.table →
    ops.Pairwise fun op op' => ∀ r r', op = .ins r → op' = .ins r' → ¬ a.Refs r (r' a.model.pk)

/-- What is known about one row write, of the statement or of a trigger. -/
structure OpFacts (E : Engine) (a : AggDenorm) (S : List (TableName × Col)) (fr : Frame) (t : TableName) (op : RowOp) (db : Db) : Prop where
  ints : ∀ t', ∀ r ∈ (applyOp E t op db).1.rows t', IntRow S t' r
  changes : ∀ ch ∈ (applyOp E t op db).2, ChangeInt S ch ∧ NotBlocked E fr ch ∧ ch.table = t

theorem effs_changes {E : Engine} {D : List Denorm} {a : AggDenorm} (hE : Installed E D) (hD : AggDeclared E.backend D a) {fr : Frame}
    (i : Nat) (k : Val) : ∀ {chs : List Change}, (∀ ch ∈ chs, NotBlocked E fr ch) →
    a.effs i k (chs.flatMap (E.fired fr)) = (chs.map fun ch => a.shift ch k).sum
  | [], _ => rfl
  | ch :: chs, h => by
    simp only [List.flatMap_cons, effs_append, List.map_cons, List.sum_cons,
      effs_fired hE hD (h ch (List.mem_cons_self ..)), effs_changes hE hD i k fun ch hc => h ch (List.mem_cons_of_mem _ hc)]

theorem fired_unref {E : Engine} {D : List Denorm} {a : AggDenorm} (hE : Installed E D) (hD : AggDeclared E.backend D a) {fr fr' : Frame}
    {ch ch' : Change} {k : Val} {x : Action} (h : ch.table = a.related.table → ¬ a.Refs ch.old k ∧ ¬ a.Refs ch.new k)
    (hit : .act fr' ch' x ∈ E.fired fr ch) : a.actEff ch' k x = 0 := by
  have hx : x ∈ (E.fired fr ch).filterMap Item.action := List.mem_filterMap.2 ⟨_, hit, rfl⟩
  obtain ⟨tr, _, _, y, _, he⟩ := mem_fired.1 hit
  simp only [Item.act.injEq] at he
  obtain ⟨_, rfl, _⟩ := he
  unfold AggDenorm.actEff
  have hn : (x = a.increment ∨ x = a.decrement) → ch'.table = a.related.table := by
    intro hor
    by_cases ht : ch'.table = a.related.table
    · exact ht
    · have := agg_timesRun_other hE hD (fr := fr) ht hor
      exact absurd hx (List.count_eq_zero.1 this)
  split
  · rename_i h1
    exact share_unref (h (hn (.inl h1))).2
  · split
    · rename_i h1
      rw [share_unref (h (hn (.inr h1))).1]; rfl
    · rfl

/-- A row write of a trigger. -/
theorem nested_facts {E : Engine} {D : List Denorm} {a : AggDenorm} {S : List (TableName × Col)} {rank : String → Nat}
    (hC : AggCtx E D a S rank) {fr : Frame} {t : TableName} {op : RowOp} {ops : List RowOp} {db : Db}
    (h : AggItem E rank S (.write fr t (op :: ops))) (hI : ∀ t, ∀ r ∈ db.rows t, IntRow S t r) :
    OpFacts E a S fr t op db ∧
    (∀ (j : Nat) (r' : Row), ((applyOp E t op db).1.rows a.model.table)[j]? = some r' → ∃ r : Row, (db.rows a.model.table)[j]? = some r ∧ r' a.model.pk = r a.model.pk ∧
      ∀ v, r a.fieldname = .int v → r' a.fieldname = .int (v + if t = a.model.table then opDelta a.fieldname j op else 0)) ∧
    (∀ ch ∈ (applyOp E t op db).2, ch.table = a.related.table → ch.old ∈ db.rows a.related.table ∧ ch.new a.fk.column = ch.old a.fk.column) ∧
    (∀ o' ∈ (applyOp E t op db).1.rows a.related.table, ∃ o ∈ db.rows a.related.table, o' a.fk.column = o a.fk.column) := by
  obtain ⟨i, u, ch0, db0, rfl, hut, hch0, tr, htr, hu, htc⟩ := h.2 op (List.mem_cons_self ..)
  have hman : Managed E t u.col := ⟨tr, htr, u, hu, hut, rfl⟩
  have hpk : t = a.model.table → a.model.pk ≠ u.col := by
    intro e hc
    obtain ⟨dn, hdn, hw⟩ := managed_writes hC.inst hman
    exact hC.decl.pk dn hdn (by rw [hc, ← e]; exact hw)
  have hfk : t = a.related.table → a.fk.column ≠ u.col := by
    intro e hc
    obtain ⟨dn, hdn, hw⟩ := managed_writes hC.inst hman
    exact hC.decl.fk dn hdn (by rw [hc, ← e]; exact hw)
  cases hrow : (db.rows t)[i]? with
  | none =>
    have hap : applyOp E t (.upd i (u.set ch0 db0)) db = (db, []) := by simp only [applyOp, hrow]
    rw [hap]
    refine ⟨⟨by rw [hap]; exact hI, by rw [hap]; simp⟩, ?_, by simp, fun o ho => ⟨o, ho, rfl⟩⟩
    intro j r' hr'
    refine ⟨r', hr', rfl, fun v hv => ?_⟩
    split
    · rename_i ht
      have : i ≠ j := by
        rintro rfl
        rw [ht, hr'] at hrow
        simp at hrow
      simp [opDelta, this, hv]
    · simp [hv]
  | some old =>
    have hold : old ∈ db.rows t := List.mem_of_getElem? hrow
    have hap : applyOp E t (.upd i (u.set ch0 db0)) db =
        ({ db.setRows t ((db.rows t).set i (u.set ch0 db0 (E.rand db.draws) old)) with draws := db.draws + 1 },
          [⟨t, .update, old, u.set ch0 db0 (E.rand db.draws) old⟩]) := by simp only [applyOp, hrow]
    have hnew : IntRow S t (u.set ch0 db0 (E.rand db.draws) old) := by
      have := set_int hC.inst hC.closed htr hu hch0 htc db0 (E.rand db.draws) (r := old) (hut ▸ hI t old hold)
      exact hut ▸ this
    have hother : ∀ c, c ≠ u.col → u.set ch0 db0 (E.rand db.draws) old c = old c := fun c hc => UpdAction.set_other _ _ _ _ _ _ hc
    obtain ⟨x, heff, hchs, hupd, hins, hdel⟩ := applyOp_effect E t (.upd i (u.set ch0 db0)) db
    have hxe : x = some (.update, old, u.set ch0 db0 (E.rand db.draws) old) := by
      rw [hap] at hchs
      rcases x with _ | ⟨e, o, n⟩
      · simp [effectChange] at hchs
      · simp only [effectChange, List.cons.injEq, Change.mk.injEq, true_and, and_true] at hchs
        obtain ⟨rfl, rfl, rfl⟩ := hchs; rfl
    have hnb : NotBlocked E fr ⟨t, .update, old, u.set ch0 db0 (E.rand db.draws) old⟩ :=
      notBlocked_of (write_facts h.1 hupd hins hdel) .update _ _ hxe
    refine ⟨⟨?_, ?_⟩, ?_, ?_, ?_⟩
    · intro t' r hr
      by_cases ht : t' = t
      · subst ht
        rw [hap] at hr
        simp only [Db.setRows_same] at hr
        rcases List.mem_or_eq_of_mem_set hr with hr | rfl
        · exact hI _ _ hr
        · exact hnew
      · rw [applyOp_rows_other E _ _ ht] at hr
        exact hI _ _ hr
    · rw [hap]
      intro ch hch
      simp only [List.mem_singleton] at hch
      subst hch
      exact ⟨⟨hI t old hold, hnew⟩, hnb, rfl⟩
    · intro j r' hr'
      by_cases ht : t = a.model.table
      · subst ht
        rw [hap] at hr'
        simp only [Db.setRows_same, List.getElem?_set] at hr'
        by_cases hij : i = j
        · subst hij
          have hlt := (List.getElem?_eq_some_iff.1 hrow).1
          simp only [if_true, hlt, Option.some.injEq] at hr'
          subst hr'
          refine ⟨old, hrow, hother _ (hpk rfl), fun v hv => ?_⟩
          simp only [if_true, opDelta]
          exact own_delta hC htr hu hch0 htc db0 _ hv hut
        · simp only [hij, if_false] at hr'
          exact ⟨r', hr', rfl, fun v hv => by simp [opDelta, hij, hv]⟩
      · rw [applyOp_rows_other E _ _ (Ne.symm ht)] at hr'
        exact ⟨r', hr', rfl, fun v hv => by simp [ht, hv]⟩
    · rw [hap]
      intro ch hch ht
      simp only [List.mem_singleton] at hch
      subst hch
      simp only at ht
      exact ⟨ht ▸ hold, hother _ (hfk ht)⟩
    · intro o' ho'
      by_cases ht : t = a.related.table
      · subst ht
        rw [hap] at ho'
        simp only [Db.setRows_same] at ho'
        rcases List.mem_or_eq_of_mem_set ho' with hr | rfl
        · exact ⟨o', hr, rfl⟩
        · exact ⟨old, hold, hother _ (hfk rfl)⟩
      · rw [applyOp_rows_other E _ _ (Ne.symm ht)] at ho'
        exact ⟨o', ho', rfl⟩

theorem aggInv_nested {E : Engine} {D : List Denorm} {a : AggDenorm} {S : List (TableName × Col)} {rank : String → Nat}
    (hC : AggCtx E D a S rank) (s : Stmt) (ops : List RowOp) : StepInv E (AggInv E a S rank s ops) where
  perm := by
    intro W W' db hp h
    refine ⟨fun it hit => h.items it (hp.mem_iff.2 hit), h.ints, ?_, h.tops, ?_, h.pair⟩
    · intro i r hr
      obtain ⟨v, h1, h2⟩ := h.sums i r hr
      exact ⟨v, h1, by rw [← effs_perm a i _ hp]; exact h2⟩
    · intro ht r hr
      obtain ⟨h1, h2, h3⟩ := h.fresh ht r hr
      exact ⟨h1, h2, fun fr ch x hx => h3 fr ch x (hp.mem_iff.2 hx)⟩
  writeNil := by
    intro fr t W db h
    refine ⟨fun it hit => h.items it (List.mem_cons_of_mem _ hit), h.ints, ?_, h.tops, ?_, h.pair⟩
    · intro i r hr
      obtain ⟨v, h1, h2⟩ := h.sums i r hr
      refine ⟨v, h1, ?_⟩
      rw [← h2, effs_cons]
      simp [AggDenorm.eff]
    · intro ht r hr
      obtain ⟨h1, h2, h3⟩ := h.fresh ht r hr
      exact ⟨h1, h2, fun fr ch x hx => h3 fr ch x (List.mem_cons_of_mem _ hx)⟩
  writeOp := by
    intro fr t op wops W db h
    have hit := h.items _ (List.mem_cons_self ..)
    obtain ⟨hF, hrows, hch, hfk⟩ := nested_facts hC hit h.ints
    refine ⟨?_, hF.ints, ?_, h.tops, ?_, h.pair⟩
    · intro it hin
      rcases List.mem_cons.1 hin with rfl | hin
      · refine ⟨?_, fun o ho => hit.2 o (List.mem_cons_of_mem _ ho)⟩
        rcases hit.1 with ⟨h1, h2, h3⟩ | ⟨col, h1, h2, h3⟩
        · exact .inl ⟨h1, h2, fun o ho => h3 o (List.mem_cons_of_mem _ ho)⟩
        · exact .inr ⟨col, h1, fun o ho => h2 o (List.mem_cons_of_mem _ ho), h3⟩
      · rcases List.mem_append.1 hin with hin | hin
        · exact aggItem_fired hit.1 (fun ch hc => (hF.changes ch hc).1) it hin
        · exact h.items it (List.mem_cons_of_mem _ hin)
    · intro j r' hr'
      obtain ⟨r, hr, hpk, hval⟩ := hrows j r' hr'
      obtain ⟨v, hv, hsum⟩ := h.sums j r hr
      refine ⟨_, hval v hv, ?_⟩
      rw [effs_cons, effs_append, effs_changes hC.inst hC.decl _ _ fun ch hc => (hF.changes ch hc).2.1, total_apply, hpk, ← hsum, effs_cons]
      simp only [AggDenorm.eff]
      split
      · simp only [List.map_cons, List.sum_cons]; omega
      · omega
    · intro ht r hr
      obtain ⟨h1, h2, h3⟩ := h.fresh ht r hr
      refine ⟨h1, ?_, ?_⟩
      · intro o' ho'
        obtain ⟨o, ho, he⟩ := hfk o' ho'
        have := h2 o ho
        simp only [AggDenorm.Refs] at this ⊢
        rw [he]; exact this
      · intro fr' ch' x hx
        rcases List.mem_cons.1 hx with hx | hx
        · simp at hx
        · rcases List.mem_append.1 hx with hx | hx
          · obtain ⟨ch, hc, hx⟩ := List.mem_flatMap.1 hx
            refine fired_unref hC.inst hC.decl ?_ hx
            intro htab
            obtain ⟨k1, k2⟩ := hch ch hc htab
            have := h2 _ k1
            simp only [AggDenorm.Refs] at this ⊢
            rw [k2]; exact ⟨this, this⟩
          · exact h3 fr' ch' x (List.mem_cons_of_mem _ hx)
  markValues := by
    intro fr ch ct sd c q W db h
    refine ⟨fun it hit => h.items it (List.mem_cons_of_mem _ hit), h.ints, ?_, h.tops, ?_, h.pair⟩
    · intro i r hr
      obtain ⟨v, h1, h2⟩ := h.sums i r hr
      refine ⟨v, h1, ?_⟩
      have e : a.total (db.addMarks [⟨ct, ch.side sd c⟩]) (r a.model.pk) = a.total db (r a.model.pk) := rfl
      rw [e, ← h2, effs_cons]
      simp [AggDenorm.eff, AggDenorm.actEff, AggDenorm.increment, AggDenorm.decrement]
    · intro ht r hr
      obtain ⟨h1, h2, h3⟩ := h.fresh ht r hr
      exact ⟨h1, h2, fun fr ch x hx => h3 fr ch x (List.mem_cons_of_mem _ hx)⟩
  markSelect := by
    intro fr ch ct sel t k sd c q W db h
    refine ⟨fun it hit => h.items it (List.mem_cons_of_mem _ hit), h.ints, ?_, h.tops, ?_, h.pair⟩
    · intro i r hr
      obtain ⟨v, h1, h2⟩ := h.sums i r hr
      refine ⟨v, h1, ?_⟩
      have e : a.total (db.addMarks (selectMarks ct sel (db.rows t) k (ch.side sd c))) (r a.model.pk) = a.total db (r a.model.pk) := rfl
      rw [e, ← h2, effs_cons]
      simp [AggDenorm.eff, AggDenorm.actEff, AggDenorm.increment, AggDenorm.decrement]
    · intro ht r hr
      obtain ⟨h1, h2, h3⟩ := h.fresh ht r hr
      exact ⟨h1, h2, fun fr ch x hx => h3 fr ch x (List.mem_cons_of_mem _ hx)⟩
  update := by
    intro fr ch u W db _ h
    have hit := h.items _ (List.mem_cons_self ..)
    refine ⟨?_, h.ints, ?_, h.tops, ?_, h.pair⟩
    · intro it hin
      rcases List.mem_append.1 hin with hin | hin
      · exact aggItem_update hC.ranked hit it hin
      · exact h.items it (List.mem_cons_of_mem _ hin)
    · intro i r hr
      obtain ⟨v, h1, h2⟩ := h.sums i r hr
      refine ⟨v, h1, ?_⟩
      rw [effs_append, effs_update hC hit hr, ← h2, effs_cons]
    · intro ht r hr
      obtain ⟨h1, h2, h3⟩ := h.fresh ht r hr
      refine ⟨h1, h2, fun fr' ch' x hx => ?_⟩
      rcases List.mem_append.1 hx with hx | hx
      · obtain ⟨l, hl, _⟩ := mem_writes hx
        simp at hl
      · exact h3 fr' ch' x (List.mem_cons_of_mem _ hx)

/-- A row write of the statement itself. -/
theorem aggInv_top {E : Engine} {D : List Denorm} {a : AggDenorm} {S : List (TableName × Col)} {rank : String → Nat}
    (hC : AggCtx E D a S rank) {s : Stmt} {db0 : Db} (hL : AggLegal a S db0 s) {op : RowOp} {ops : List RowOp} {W : List Item} {db : Db}
    (hW : ∀ it ∈ W, it.isAct) (h : AggInv E a S rank s (op :: ops) W db) :
    AggInv E a S rank s ops ((applyOp E s.table op db).2.flatMap (E.fired .top) ++ W) (applyOp E s.table op db).1 := by
  have htop := h.tops op (List.mem_cons_self ..)
  have hok : ItemOk E rank s (.write .top s.table [op]) := .inl ⟨rfl, rfl, by simpa using htop⟩
  obtain ⟨x, heff, hchs, hupd, hins, hdel⟩ := applyOp_effect E s.table op db
  have hnb : ∀ ch ∈ (applyOp E s.table op db).2, NotBlocked E .top ch := by
    intro ch _ _ tr _ _ _ _; simp [Frame.top]
  -- integers
  have hch : ∀ ch ∈ (applyOp E s.table op db).2, ch.table = s.table ∧ ChangeInt S ch := by
    rw [hchs]
    intro ch hch
    rcases x with _ | ⟨e, o, n⟩
    · simp [effectChange] at hch
    · simp only [effectChange, List.mem_singleton] at hch
      subst hch
      refine ⟨rfl, ?_⟩
      generalize hrs : db.rows s.table = rs at heff
      generalize (applyOp E s.table op db).1.rows s.table = rs' at heff
      cases heff with
      | ins r =>
        have hop := hins _ _ rfl
        cases s with
        | insert t rs0 =>
          obtain ⟨r', hr', he⟩ := htop
          rw [hop] at he
          simp only [RowOp.ins.injEq] at he
          subst he
          exact ⟨hL.1 _ hr', hL.1 _ hr'⟩
        | update t w σ => obtain ⟨j, hj⟩ := htop; rw [hop] at hj; simp at hj
        | delete t w => rw [TopOp, hop] at htop; simp at htop
      | upd l1 l2 o n he =>
        obtain ⟨i, σ, hop, hn⟩ := hupd o n rfl
        have ho : IntRow S s.table o := h.ints _ _ (by rw [hrs, he]; simp)
        cases s with
        | update t w σ' =>
          obtain ⟨j, hj⟩ := htop
          rw [hop] at hj
          simp only [RowOp.upd.injEq] at hj
          obtain ⟨_, rfl⟩ := hj
          exact ⟨ho, by rw [hn]; exact hL.1 _ _ ho⟩
        | insert t rs0 => obtain ⟨r', _, he⟩ := htop; rw [hop] at he; simp at he
        | delete t w => rw [TopOp, hop] at htop; simp at htop
      | del l1 l2 o he =>
        have ho : IntRow S s.table o := h.ints _ _ (by rw [hrs, he]; simp)
        exact ⟨ho, ho⟩
  have hints : ∀ t', ∀ r ∈ (applyOp E s.table op db).1.rows t', IntRow S t' r := by
    intro t' r hr
    by_cases ht : t' = s.table
    · subst ht
      rcases effect_mem heff hr with hr | hr | ⟨o, _, hr⟩
      · exact h.ints _ _ hr
      · exact (hch ⟨s.table, .insert, r, r⟩ (by rw [hchs, hr]; simp [effectChange])).2.2
      · exact (hch ⟨s.table, .update, o, r⟩ (by rw [hchs, hr]; simp [effectChange])).2.2
    · rw [applyOp_rows_other E _ _ ht] at hr
      exact h.ints _ _ hr
  have heffs : ∀ i k, a.effs i k ((applyOp E s.table op db).2.flatMap (E.fired .top) ++ W) + a.total db k =
      a.effs i k W + a.total (applyOp E s.table op db).1 k := by
    intro i k
    rw [effs_append, effs_changes hC.inst hC.decl _ _ hnb, total_apply]
    omega
  refine ⟨?_, hints, ?_, fun op' ho => h.tops op' (List.mem_cons_of_mem _ ho), ?_, fun h1 h2 => (List.pairwise_cons.1 (h.pair h1 h2)).2⟩
  · intro it hit
    rcases List.mem_append.1 hit with hit | hit
    · exact aggItem_fired hok (fun ch hc => (hch ch hc).2) it hit
    · exact h.items it hit
  · -- every row of the counted table
    have hmem : ∀ i r, r ∈ db.rows a.model.table → ∃ v, r a.fieldname = .int v ∧ v + a.effs i (r a.model.pk) W = a.total db (r a.model.pk) := by
      intro i r hr
      obtain ⟨j, hj⟩ := List.mem_iff_getElem?.1 hr
      obtain ⟨v, h1, h2⟩ := h.sums j r hj
      exact ⟨v, h1, by rw [effs_acts a i j _ hW]; exact h2⟩
    intro i r hr
    have hr := List.mem_of_getElem? hr
    by_cases ht : s.table = a.model.table
    · rw [← ht] at hr
      rcases effect_mem heff hr with hr | hr | ⟨o, ho, hr⟩
      · obtain ⟨v, h1, h2⟩ := hmem i r (ht ▸ hr)
        exact ⟨v, h1, by have := heffs i (r a.model.pk); omega⟩
      · have hop := hins r r hr
        obtain ⟨h1, h2, h3⟩ := h.fresh ht r (hop ▸ List.mem_cons_self ..)
        refine ⟨0, h1, ?_⟩
        have e1 := heffs i (r a.model.pk)
        have e2 := total_unref h2
        have e3 : a.effs i (r a.model.pk) W = 0 := by
          have : ∀ W : List Item, (∀ it ∈ W, it.isAct) → (∀ fr ch x, .act fr ch x ∈ W → a.actEff ch (r a.model.pk) x = 0) →
              a.effs i (r a.model.pk) W = 0 := by
            intro W
            induction W with
            | nil => intro _ _; rfl
            | cons it W ih =>
              intro ha hz
              rw [effs_cons, ih (fun it hit => ha it (List.mem_cons_of_mem _ hit)) fun fr ch x hx => hz fr ch x (List.mem_cons_of_mem _ hx)]
              cases it with
              | write => exact absurd (ha _ (List.mem_cons_self ..)) (by simp [Item.isAct])
              | act fr ch x => simp [AggDenorm.eff, hz fr ch x (List.mem_cons_self ..)]
          exact this W hW h3
        omega
      · obtain ⟨j, σ, hop, hn⟩ := hupd o r hr
        have hpres : r a.model.pk = o a.model.pk ∧ r a.fieldname = o a.fieldname := by
          cases s with
          | update t w σ' =>
            obtain ⟨j', hj⟩ := htop
            rw [hop] at hj
            simp only [RowOp.upd.injEq] at hj
            obtain ⟨_, rfl⟩ := hj
            rw [hn]
            exact hL.2 ht _ _
          | insert t rs0 => obtain ⟨r', _, he⟩ := htop; rw [hop] at he; simp at he
          | delete t w => rw [TopOp, hop] at htop; simp at htop
        obtain ⟨v, h1, h2⟩ := hmem i o (ht ▸ ho)
        refine ⟨v, hpres.2.trans h1, ?_⟩
        have := heffs i (o a.model.pk)
        rw [hpres.1]; omega
    · rw [applyOp_rows_other E _ _ (Ne.symm ht)] at hr
      obtain ⟨v, h1, h2⟩ := hmem i r hr
      exact ⟨v, h1, by have := heffs i (r a.model.pk); omega⟩
  · -- rows still to be inserted
    intro ht r hr
    obtain ⟨h1, h2, h3⟩ := h.fresh ht r (List.mem_cons_of_mem _ hr)
    have hstmt : ∃ r0, op = .ins r0 := by
      have := h.tops _ (List.mem_cons_of_mem _ hr)
      cases s with
      | insert t rs0 => obtain ⟨r', _, he⟩ := htop; exact ⟨r', he⟩
      | update t w σ => obtain ⟨j, hj⟩ := this; simp at hj
      | delete t w => simp [TopOp] at this
    obtain ⟨r0, rfl⟩ := hstmt
    have hno : s.table = a.related.table → ¬ a.Refs r0 (r a.model.pk) := fun hR =>
      (List.pairwise_cons.1 (h.pair ht hR)).1 _ hr r0 r rfl rfl
    refine ⟨h1, ?_, ?_⟩
    · intro o ho
      by_cases hR : s.table = a.related.table
      · rw [← hR] at ho h2
        simp only [applyOp, Db.setRows_same, List.mem_append, List.mem_singleton] at ho
        rcases ho with ho | rfl
        · exact h2 o ho
        · exact hno hR
      · rw [applyOp_rows_other E _ _ (Ne.symm hR)] at ho
        exact h2 o ho
    · intro fr ch x hx
      rcases List.mem_append.1 hx with hx | hx
      · simp only [applyOp, List.flatMap_cons, List.flatMap_nil, List.append_nil] at hx
        refine fired_unref hC.inst hC.decl ?_ hx
        intro hR
        exact ⟨hno hR, hno hR⟩
      · exact h3 fr ch x hx

theorem aggInv_phase {E : Engine} {D : List Denorm} {a : AggDenorm} {S : List (TableName × Col)} {rank : String → Nat}
    (hC : AggCtx E D a S rank) {s : Stmt} {db0 : Db} (hL : AggLegal a S db0 s) : PhaseInv E s.table (AggInv E a S rank s) :=
  ⟨aggInv_nested hC s, aggInv_top hC hL⟩

theorem aggInv_start {E : Engine} {a : AggDenorm} {S : List (TableName × Col)} {rank : String → Nat} {s : Stmt} {db : Db}
    (hL : AggLegal a S db s) (hI : ∀ t, ∀ r ∈ db.rows t, IntRow S t r) (hok : AggOk a db) : AggInv E a S rank s (s.ops db) [] db := by
  refine ⟨by simp, hI, ?_, fun op ho => topOp_of_mem ho, ?_, ?_⟩
  · intro i r hr
    exact ⟨_, hok r (List.mem_of_getElem? hr), by simp [AggDenorm.effs]⟩
  · intro ht r hr
    have := topOp_of_mem hr
    cases s with
    | insert t rs =>
      obtain ⟨r', hr', he⟩ := this
      simp only [RowOp.ins.injEq] at he
      subst he
      obtain ⟨h1, h2⟩ := (hL.2 ht).1 r hr'
      exact ⟨h1, h2, by simp⟩
    | update t w σ => obtain ⟨j, hj⟩ := this; simp at hj
    | delete t w => simp [TopOp] at this
  · intro hT hR
    cases s with
    | insert t rs =>
      refine List.Pairwise.map _ ?_ ((hL.2 hT).2 hR)
      intro r r' h r1 r2 e1 e2
      simp only [RowOp.ins.injEq] at e1 e2
      subst e1; subst e2
      exact h
    | update t w σ =>
      refine List.Pairwise.map _ (R := fun _ _ => True) ?_ (List.pairwise_of_forall fun _ _ => trivial)
      intro i j _ r1 r2 e1; simp at e1
    | delete t w =>
      refine List.Pairwise.map _ (R := fun _ _ => True) ?_ (List.pairwise_of_forall fun _ _ => trivial)
      intro i j _ r1 r2 e1; simp at e1

/-- One legal statement keeps the aggregate right. -/
theorem agg_exec {E : Engine} {D : List Denorm} {a : AggDenorm} {S : List (TableName × Col)} (hE : Installed E D)
    (hD : AggDeclared E.backend D a) (hN : NoReentry E) (hS : IntClosed E.backend D S) (hm : (a.model.table, a.fieldname) ∈ S)
    {fuel : Nat} {s : Stmt} {db db' : Db} (hL : AggLegal a S db s) (hI : ∀ t, ∀ r ∈ db.rows t, IntRow S t r) (hok : AggOk a db)
    (he : E.exec fuel s db = .ok db') : AggOk a db' ∧ ∀ t, ∀ r ∈ db'.rows t, IntRow S t r := by
  obtain ⟨rank, hR⟩ := hN.ranked
  have hC : AggCtx E D a S rank := ⟨hE, hD, hR, hS, hm⟩
  have h := (aggInv_phase hC hL).exec (aggInv_start hL hI hok) he
  refine ⟨fun r hr => ?_, h.ints⟩
  obtain ⟨i, hi⟩ := List.mem_iff_getElem?.1 hr
  obtain ⟨v, h1, h2⟩ := h.sums i r hi
  rw [h1, ← h2]
  simp [AggDenorm.effs]

end Denorm
