import Verif.Lemmas.DeleteCached
import Verif.Props.Rekey
import Verif.Props.Finishes
/-!
# delete() of instances and querysets (C93)
-/
namespace Denorm

section
variable {E : Engine} {D : List Denorm} {cb : Callback} {P : Collector} {fuel : Nat}

theorem deletions_tracked (hE : Installed E D) (hD : WellDeclared E.backend D cb) (hW : KeysWatched cb) (hN : NoReentry E) (hF : P.Fits E cb)
    (hGd : P.Guards cb) {C : Db → Row → Prop} (hC : TrackedProp cb C) : ∀ (ds : List (TableName × List Val)) (db : Db), KeysOk cb db → KeysApart cb db →
    RefsIntact cb db → (∀ r ∈ db.rows cb.model.table, Marked cb.model db r ∨ C db r) →
    KeysOk cb (E.deletions P fuel ds db) ∧ KeysApart cb (E.deletions P fuel ds db) ∧ RefsIntact cb (E.deletions P fuel ds db) ∧
      ∀ r ∈ (E.deletions P fuel ds db).rows cb.model.table, Marked cb.model (E.deletions P fuel ds db) r ∨ C (E.deletions P fuel ds db) r
  | [], _, hK, hA, hR, hg => ⟨hK, hA, hR, hg⟩
  | d :: ds, db, hK, hA, hR, hg => by
    simp only [Engine.deletions]
    cases he : E.deleteObjects P fuel d.1 d.2 db with
    | ok db' =>
      obtain ⟨h1, h2, h3, h4⟩ := delete_tracked hE hD hW hN hF hGd hC he hK hA hR hg
      exact deletions_tracked hE hD hW hN hF hGd hC ds db' h1 h2 h3 h4
    | error e => exact deletions_tracked hE hD hW hN hF hGd hC ds db hK hA hR hg

/-- **C93, partial.** Objects may be deleted through the ORM in any order, with whatever CASCADE, SET_NULL and PROTECT lead to: afterwards every
instance whose `@denormalized` value is out of date has a dirty marker, and references are in order, if that was so before. Missing: relations
of the callback that are declared with DO_NOTHING; see `C93_nothing_partial`, and for many-to-many relations `C93_violated`. -/
theorem C93_marked_partial (hE : Installed E D) (hD : WellDeclared E.backend D cb) (hW : KeysWatched cb) (hN : NoReentry E) (hF : P.Fits E cb)
    (hGd : P.Guards cb) {ds : List (TableName × List Val)} {db0 : Db} (hK : KeysOk cb db0) (hA : KeysApart cb db0) (hR : RefsIntact cb db0)
    (hS : ∀ r ∈ db0.rows cb.model.table, r cb.field = cb.value db0 r ∨ Marked cb.model db0 r) :
    RefsIntact cb (E.deletions P fuel ds db0) ∧ ∀ r ∈ (E.deletions P fuel ds db0).rows cb.model.table,
      r cb.field ≠ cb.value (E.deletions P fuel ds db0) r → Marked cb.model (E.deletions P fuel ds db0) r := by
  obtain ⟨_, _, h3, h4⟩ := deletions_tracked (fuel := fuel) hE hD hW hN hF hGd (freshTracked cb) ds db0 hK hA hR fun r hr => (hS r hr).symm
  exact ⟨h3, fun r hr hne => (h4 r hr).resolve_right hne⟩

/-- **C93, partial.** flush() after such deletions leaves nothing stale (for fields as in C01). -/
theorem C93_flush_partial {A : App} {om : OrmModel} (hW : KeysWatched cb) (hF : P.Fits A.engine cb) (hGd : P.Guards cb) {ds : List (TableName × List Val)}
    {db0 db' : Db} (hK : KeysOk cb db0) (hA : KeysApart cb db0) (hR : RefsIntact cb db0)
    (hS : ∀ r ∈ db0.rows cb.model.table, r cb.field = cb.value db0 r ∨ Marked cb.model db0 r)
    (hf : Flushable A D om cb (A.engine.deletions P fuel ds db0)) (hu : KeysUnique A (A.engine.deletions P fuel ds db0))
    {n : Nat} (h : A.flush n (A.engine.deletions P fuel ds db0) = .ok (some db')) :
    db'.dirty = [] ∧ ∀ r ∈ db'.rows cb.model.table, r cb.field = cb.value db' r := by
  obtain ⟨h1, _, _, h4⟩ := deletions_tracked (fuel := fuel) hf.installed hf.declared hW hf.noReentry hF hGd (freshTracked cb) ds db0 hK hA hR
    fun r hr => (hS r hr).symm
  exact C01_flush_partial hf hu h1 (staleMarked_iff.2 h4) h

theorem deletions_legal (hE : Installed E D) (hD : WellDeclared E.backend D cb) (hN : NoReentry E) (hF : P.Fits E cb) (hS : P.Sorted cb)
    (hGd : P.GuardsLinks cb) {C : Db → Row → Prop} (hC : TrackedProp cb C) : ∀ (ds : List (TableName × List Val)) (db : Db), KeysOk cb db →
    (∀ r ∈ db.rows cb.model.table, Marked cb.model db r ∨ C db r) →
    KeysOk cb (E.deletions P fuel ds db) ∧
      ∀ r ∈ (E.deletions P fuel ds db).rows cb.model.table, Marked cb.model (E.deletions P fuel ds db) r ∨ C (E.deletions P fuel ds db) r
  | [], _, hK, hg => ⟨hK, hg⟩
  | d :: ds, db, hK, hg => by
    simp only [Engine.deletions]
    cases he : E.deleteObjects P fuel d.1 d.2 db with
    | ok db' =>
      obtain ⟨G, hc, hr⟩ := deleteObjects_ok he
      obtain ⟨hG, _, hcl⟩ := collected hc
      obtain ⟨h1, h2⟩ := runAll_tracked (tracks_of_installed hE hD) hN hC (fun h0 h1 => legal_deletion hF hS hGd hG hcl h0 h1) (ss := []) rfl rfl hr hK hg
      exact deletions_legal hE hD hN hF hS hGd hC ds db' h1 h2
    | error e => exact deletions_legal hE hD hN hF hS hGd hC ds db hK hg

/-- **C93, partial.** The same where ForeignKeys may also be declared with DO_NOTHING, so that references may lead nowhere, before and after; only
the ForeignKeys of many-to-many relations may not, and links have to be deleted before what they link to. -/
theorem C93_nothing_partial (hE : Installed E D) (hD : WellDeclared E.backend D cb) (hN : NoReentry E) (hF : P.Fits E cb) (hS : P.Sorted cb)
    (hGd : P.GuardsLinks cb) {ds : List (TableName × List Val)} {db0 : Db} (hK : KeysOk cb db0)
    (hM : ∀ r ∈ db0.rows cb.model.table, r cb.field = cb.value db0 r ∨ Marked cb.model db0 r) :
    ∀ r ∈ (E.deletions P fuel ds db0).rows cb.model.table,
      r cb.field ≠ cb.value (E.deletions P fuel ds db0) r → Marked cb.model (E.deletions P fuel ds db0) r :=
  fun r hr hne => ((deletions_legal hE hD hN hF hS hGd (freshTracked cb) ds db0 hK fun r hr => (hM r hr).symm).2 r hr).resolve_right hne

/-- **C93, partial.** flush() then leaves nothing stale (for fields as in C01). -/
theorem C93_nothing_flush_partial {A : App} {om : OrmModel} (hF : P.Fits A.engine cb) (hS : P.Sorted cb) (hGd : P.GuardsLinks cb)
    {ds : List (TableName × List Val)} {db0 db' : Db} (hK : KeysOk cb db0)
    (hM : ∀ r ∈ db0.rows cb.model.table, r cb.field = cb.value db0 r ∨ Marked cb.model db0 r)
    (hf : Flushable A D om cb (A.engine.deletions P fuel ds db0)) (hu : KeysUnique A (A.engine.deletions P fuel ds db0))
    {n : Nat} (h : A.flush n (A.engine.deletions P fuel ds db0) = .ok (some db')) :
    db'.dirty = [] ∧ ∀ r ∈ db'.rows cb.model.table, r cb.field = cb.value db' r := by
  obtain ⟨h1, h4⟩ := deletions_legal (fuel := fuel) hf.installed hf.declared hf.noReentry hF hS hGd (freshTracked cb) ds db0 hK
    fun r hr => (hM r hr).symm
  exact C01_flush_partial hf hu h1 (staleMarked_iff.2 h4) h

/-- **C93.** delete() removes the objects and what goes with them, and nothing else: what is left was there before, has its key, and has the columns
it had, except for references with SET_NULL to something that went (and for counts, sums and cache keys, which triggers maintain). -/
theorem C93_exactly (hF : P.Fits E cb) {t : TableName} {keys : List Val} {db db' : Db}
    (hU : ∀ u, (db.rows u).Pairwise fun r r' => r (P.pk u) ≠ r' (P.pk u)) (h : E.deleteObjects P fuel t keys db = .ok db') (u : TableName) :
    (∀ r' ∈ db'.rows u, ¬ P.Doomed db t keys u (r' (P.pk u)) ∧ ∃ r ∈ db.rows u, r' (P.pk u) = r (P.pk u) ∧
      ∀ c, ¬ Managed E u c → r' c = r c ∨ r' c = .null ∧ ∃ f ∈ P.refs, f.on = .setNull ∧ f.table = u ∧ f.col = c ∧
        ∃ k, P.Doomed db t keys f.target k ∧ f.Refers k r) ∧
    ∀ r ∈ db.rows u, ¬ P.Doomed db t keys u (r (P.pk u)) → ∃ r' ∈ db'.rows u, r' (P.pk u) = r (P.pk u) := by
  obtain ⟨G, hc, hr⟩ := deleteObjects_ok h
  obtain ⟨hG, hk, _⟩ := collected hc
  have hs : G.Sound P db (P.Doomed db t keys) := collect_sound (fun f hf ho k hd r hr hrf => .cascade hf ho hd hr hrf) (fun p hp k hd => .parent hp hd) hc
    (fun q hq k hk => by
      simp only [List.mem_singleton] at hq
      subst hq; exact .given hk) ⟨by simp, by simp, by simp⟩
  have same : ∀ {v : TableName} {r r2 : Row}, r ∈ db.rows v → r2 ∈ db.rows v → r (P.pk v) = r2 (P.pk v) → r = r2 := by
    intro v r r2 h1 h2 e
    have := hU v
    generalize db.rows v = l at h1 h2 this
    induction l with
    | nil => simp at h1
    | cons x l ih =>
      rw [List.pairwise_cons] at this
      rcases List.mem_cons.1 h1 with rfl | h3
      · rcases List.mem_cons.1 h2 with rfl | h4
        · rfl
        · exact absurd e (this.1 _ h4)
      · rcases List.mem_cons.1 h2 with rfl | h4
        · exact absurd e.symm (this.1 _ h3)
        · exact ih h3 h4 this.2
  refine ⟨fun r' hr' => ?_, fun r hrm hd => ?_⟩
  · obtain ⟨r, h1, r1, ho, ha⟩ := (delete_rows hF hG hr u).1 r' hr'
    have ek : r' (P.pk u) = r (P.pk u) := by rw [← ha _ (hF.keys _), ho.pk]
    refine ⟨fun hd => ?_, r, h1, ek, fun c hcm => ?_⟩
    · rw [ek] at hd
      rcases doomed_gathered hc hd with hd | ⟨_, f, ks, hf, rfl, r2, hr2, e2, hp⟩
      · exact ho.slow hd
      · rw [same hr2 h1 e2, ho.fast _ hf rfl] at hp
        cases hp
    · rw [← ha c hcm]
      by_cases he : r1 c = r c
      · exact .inl he
      · obtain ⟨p, hp, rfl, hcol, hm⟩ := ho.why c he
        obtain ⟨r2, hr2, e2, k, hdk, hrf⟩ := hs.updates p hp _ hm
        rw [same hr2 h1 e2] at hrf
        exact .inr ⟨(ho.cols c).resolve_left he, p.1, (hG.updates p hp).1, (hG.updates p hp).2, rfl, hcol, k, hdk, hrf⟩
  · obtain ⟨r', hr', r1, ho, ha⟩ := (delete_rows hF hG hr u).2 r hrm (fun hi => hd (hs.instances _ hi)) (by
      rintro p hp rfl
      cases hpt : p.1.points p.2 r with
      | false => rfl
      | true =>
        obtain ⟨k, hkk, hrf⟩ := points_iff.1 hpt
        exact absurd (.cascade (hG.fast p hp).1 (hG.fast p hp).2.1 (hs.fast p hp k hkk) hrm hrf) hd)
    exact ⟨r', hr', by rw [← ha _ (hF.keys _), ho.pk]⟩

/-- **C93.** After delete() nothing refers to anything that went by a ForeignKey (or GenericRelation) that is declared with CASCADE or SET_NULL; and
if something had referred to it by one that is declared with PROTECT, delete() would have raised (and nothing would have been changed). -/
theorem C93_unreferenced (hF : P.Fits E cb) {t : TableName} {keys : List Val} {db db' : Db} (h : E.deleteObjects P fuel t keys db = .ok db')
    {f : ModelRef} (hf : f ∈ P.refs) (hon : f.on ≠ .doNothing) {k : Val} (hd : P.Doomed db t keys f.target k) :
    (∀ r ∈ db'.rows f.table, ¬ f.Refers k r) ∧ (f.on = .protect → ∀ r ∈ db.rows f.table, ¬ f.Refers k r) := by
  obtain ⟨G, hc, hr⟩ := deleteObjects_ok h
  obtain ⟨hG, hk, hcl⟩ := collected hc
  have hi : (f.target, k) ∈ G.instances := by
    refine (doomed_gathered hc hd).resolve_right fun h0 => ?_
    have := h0.1
    simp only [Collector.canFast, Bool.and_eq_true, List.all_eq_true, Bool.or_eq_true, decide_eq_true_eq] at this
    rcases this.1.2 f hf with h0 | h0
    · exact absurd rfl h0
    · exact absurd h0 hon
  have cared : ∀ r ∈ db.rows f.table, f.Refers k r → Cared P f r G [] := fun r hr hrf =>
    hcl _ hi f hf rfl r hr (points_iff.2 ⟨k, List.mem_singleton.2 rfl, hrf⟩)
  constructor
  · intro r' hr' hrf
    obtain ⟨r, h1, r1, ho, ha⟩ := (delete_rows hF hG hr f.table).1 r' hr'
    have e1 : r1 f.col = r' f.col := ha _ (hF.cols f hf).1
    have hrf' : f.Refers k r := by
      refine ⟨?_, hrf.2.1, fun p hp => ?_⟩
      · rw [← hrf.1, ← e1]
        exact ((ho.cols f.col).resolve_right (by rw [e1, hrf.1]; exact hrf.2.1)).symm
      · have e2 : r1 p.1 = .int p.2 := (ha _ ((hF.cols f hf).2 p hp)).trans (hrf.2.2 p hp)
        rw [← e2]
        exact ((ho.cols p.1).resolve_right (by rw [e2]; simp)).symm
    have hc := cared r h1 hrf'
    unfold Cared at hc
    cases hon' : f.on with
    | cascade =>
      simp only [hon'] at hc
      rcases hc with ⟨_, ks, h1, h2⟩ | h1 | ⟨q, hq, _⟩
      · have := ho.fast _ h1 rfl
        rw [h2] at this; cases this
      · exact ho.slow h1
      · simp at hq
    | setNull =>
      simp only [hon'] at hc
      obtain ⟨ks, h1, h2⟩ := hc
      exact hrf.2.1 (by rw [← hrf.1, ← e1]; exact ho.null _ h1 rfl h2)
    | protect => simp only [hon'] at hc
    | doNothing => exact hon hon'
  · intro hp r hr hrf
    have hc := cared r hr hrf
    unfold Cared at hc
    simp only [hp] at hc

/-- **C93.** delete() comes to an end, also if references lead round in a circle: if every statement does (see C51 for when that is so), there is
one outcome that every sufficiently high limit on recursion leads to, and it is either success or ProtectedError. -/
theorem C93_finishes (hE : ∀ s db, E.Finishes s db) (t : TableName) (keys : List Val) (db : Db) :
    ∃ N, (∃ db', ∀ n, N ≤ n → E.deleteObjects P n t keys db = .ok db') ∨
      ∀ n, N ≤ n → E.deleteObjects P n t keys db = .error (.collect .protectedError) := by
  obtain ⟨x, N, hx, h⟩ := collect_ends (P := P) (db := db) (Ts := t :: (P.refs.map (·.table) ++ P.parents.map (·.2)))
    (Ks := keys ++ P.refs.flatMap fun f => (db.rows f.table).map fun r => r (P.pk f.table))
    ⟨fun f hf => List.mem_cons_of_mem _ (List.mem_append_left _ (List.mem_map.2 ⟨f, hf, rfl⟩)),
      fun p hp => List.mem_cons_of_mem _ (List.mem_append_right _ (List.mem_map.2 ⟨p, hp, rfl⟩))⟩
    (fun f hf r hr => List.mem_append_right _ (List.mem_flatMap.2 ⟨f, hf, List.mem_map.2 ⟨r, hr, rfl⟩⟩)) _ [(t, keys)] {} (Nat.le_refl _) (by
      intro q hq
      simp only [List.mem_singleton] at hq
      subst hq
      exact ⟨List.mem_cons_self .., fun k hk => List.mem_append_left _ hk⟩)
  cases x with
  | error e =>
    cases e with
    | depth => exact absurd rfl hx
    | protectedError => exact ⟨N, .inr fun n hn => by simp only [Engine.deleteObjects, h n hn]⟩
  | ok G =>
    obtain ⟨db', M, h'⟩ := runAll_ends hE (G.stmts P) db
    exact ⟨N + M, .inl ⟨db', fun n hn => by simp only [Engine.deleteObjects, h n (by omega), h' n (by omega)]⟩⟩

end

section
variable {E : Engine} {D : List Denorm} {a : AggDenorm} {P : Collector} {fuel : Nat}

theorem removals_agg {S : List (TableName × Col)} (hE : Installed E D) (hD : AggDeclared E.backend D a) (hN : NoReentry E)
    (hS : IntClosed E.backend D S) (hm : (a.model.table, a.fieldname) ∈ S) (hP : P.Spares a)
    (hP' : ∀ f ∈ P.refs, f.on = .setNull → (f.table, f.col) ∉ S) : ∀ {ss : List Stmt} {db db' : Db}, (∀ s ∈ ss, Removal P s) →
    E.runAll fuel ss db = .ok db' → (∀ t, ∀ r ∈ db.rows t, IntRow S t r) → AggOk a db → AggOk a db' ∧ ∀ t, ∀ r ∈ db'.rows t, IntRow S t r
  | [], db, db', _, h, hI, hok => by
    simp only [Engine.runAll, Except.ok.injEq] at h
    subst h; exact ⟨hok, hI⟩
  | s :: ss, db, db', hs, h, hI, hok => by
    simp only [Engine.runAll] at h
    cases he : E.exec fuel s db with
    | error e => rw [he] at h; cases h
    | ok db1 =>
      rw [he] at h
      have hl : AggLegal a S db s := by
        rcases hs s (List.mem_cons_self ..) with ⟨t, w, rfl⟩ | ⟨f, hf, hn, w, rfl⟩
        · trivial
        · refine ⟨fun _ r hr c hc => ?_, fun ht _ r => ?_⟩
          · show ∃ i, r.set f.col .null c = .int i
            rw [Row.set_away (fun h0 : c = f.col => hP' f hf hn (by rw [← h0]; exact hc))]; exact hr c hc
          · have := hP f hf hn ht
            exact ⟨Row.set_away (Ne.symm this.1), Row.set_away (Ne.symm this.2)⟩
      obtain ⟨h1, h2⟩ := agg_exec hE hD hN hS hm hl hI hok he
      exact removals_agg hE hD hN hS hm hP hP' (fun s' hs' => hs s' (List.mem_cons_of_mem _ hs')) h h2 h1

theorem deletions_agg {S : List (TableName × Col)} (hE : Installed E D) (hD : AggDeclared E.backend D a) (hN : NoReentry E)
    (hS : IntClosed E.backend D S) (hm : (a.model.table, a.fieldname) ∈ S) (hP : P.Spares a)
    (hP' : ∀ f ∈ P.refs, f.on = .setNull → (f.table, f.col) ∉ S) : ∀ (ds : List (TableName × List Val)) (db : Db),
    (∀ t, ∀ r ∈ db.rows t, IntRow S t r) → AggOk a db → AggOk a (E.deletions P fuel ds db)
  | [], _, _, hok => hok
  | d :: ds, db, hI, hok => by
    simp only [Engine.deletions]
    cases he : E.deleteObjects P fuel d.1 d.2 db with
    | ok db' =>
      obtain ⟨G, hc, hr⟩ := deleteObjects_ok he
      obtain ⟨h1, h2⟩ := removals_agg hE hD hN hS hm hP hP' (removal_stmts (collected hc).1) hr hI hok
      exact deletions_agg hE hD hN hS hm hP hP' ds db' h2 h1
    | error e => exact deletions_agg hE hD hN hS hm hP hP' ds db hI hok

/-- **C93** for CountField, with any filter and on every backend: after such deletions it holds the number of selected rows, without flush(). Here
relations may be declared with DO_NOTHING. -/
theorem C93_count (hE : Installed E D) (hD : AggDeclared E.backend D a) (hN : NoReentry E) (hc : a.agg = .count) (hP : P.Spares a)
    {ds : List (TableName × List Val)} {db : Db} (hok : AggOk a db) :
    ∀ r ∈ (E.deletions P fuel ds db).rows a.model.table, r a.fieldname =
      .int (((E.deletions P fuel ds db).rows a.related.table).filter fun o => decide (a.Selects (r a.model.pk) o)).length := by
  intro r hr
  have := deletions_agg (fuel := fuel) hE hD hN (count_closed hD hc) (by simp) hP (fun f hf hn hm => by
    simp only [List.mem_singleton, Prod.mk.injEq] at hm
    exact (hP f hf hn hm.1).2 hm.2) ds db (aggOk_ints hok) hok r hr
  rw [this, AggDenorm.total, hc]

/-- **C93, partial**, for SumField: it holds the sum over the selected rows, if the summed column holds integers. Missing: NULLs in the summed
column (C12). -/
theorem C93_sum_partial {S : List (TableName × Col)} (hE : Installed E D) (hD : AggDeclared E.backend D a) (hN : NoReentry E)
    (hS : IntClosed E.backend D S) (hm : (a.model.table, a.fieldname) ∈ S) (hP : P.Spares a)
    (hP' : ∀ f ∈ P.refs, f.on = .setNull → (f.table, f.col) ∉ S) {f : Col} (hf : a.agg = .sum f) {ds : List (TableName × List Val)} {db : Db}
    (hI : ∀ t, ∀ r ∈ db.rows t, IntRow S t r) (hok : AggOk a db) :
    ∀ r ∈ (E.deletions P fuel ds db).rows a.model.table, r a.fieldname = .int ((((E.deletions P fuel ds db).rows a.related.table).filter
      fun o => decide (a.Selects (r a.model.pk) o)).map fun o => (o f).toInt).sum := by
  intro r hr
  rw [deletions_agg (fuel := fuel) hE hD hN hS hm hP hP' ds db hI hok r hr, AggDenorm.total, hf]

end

/-! ## Crates -/
namespace Crates
set_option maxRecDepth 100000

/-- The ForeignKeys of the models: kinds go with their family, things with their kind; things whose crate is deleted are in no crate. -/
def collector : Collector where
  pk _ := "id"
  refs := [⟨"thing", "kind_id", "kind", .cascade, none⟩, ⟨"kind", "family_id", "family", .cascade, none⟩, ⟨"thing", "crate_id", "crate", .setNull, none⟩]

theorem managed_cols (b : Backend) {t : TableName} {c : Col} (h : Managed (engine b) t c) : c = "size" ∨ c = "weight" := by
  obtain ⟨dn, hdn, hw⟩ := managed_writes (installed b) h
  revert hw
  simp only [decls, List.mem_cons, List.not_mem_nil, or_false] at hdn
  rcases hdn with rfl | rfl | rfl <;> simp [Denorm.writes, Callback.denorm, size, weight] <;> simp_all

theorem fits (b : Backend) : collector.Fits (engine b) load where
  order := fun _ _ h => h
  pks := by decide
  keys := fun t h => by rcases managed_cols b h with h | h <;> simp [collector] at h
  cols := by
    intro f hf
    simp only [collector, List.mem_cons, List.not_mem_nil, or_false] at hf
    rcases hf with rfl | rfl | rfl <;> exact ⟨fun h => by rcases managed_cols b h with h | h <;> simp at h, fun _ h => by cases h⟩
  links := by simp [load, Dep.m2mTable]
  nulls := by decide

/-- `Family.objects.get(id=1).delete(); Crate.objects.filter(id=1).delete()` -/
def dropped : List (TableName × List Val) := [("family", [.int 1]), ("crate", [.int 1])]

/-- `C93_flush_partial`, on every backend (see `C91_violated` for MySQL without Django): the family takes pan and pot with it, the cup is in no
crate any more, and crate 2 is empty after flush(). -/
example (b : Backend) : ∃ db', (app b).flush 2 ((engine b).deletions collector 100 dropped kindDb) = .ok (some db') ∧
    (db'.rows "crate").map (fun r => (r "id", r "load")) = [(.int 2, .int 0)] ∧
    (db'.rows "thing").map (fun r => (r "id", r "crate_id")) = [(.int 1, .null)] ∧ ∀ r ∈ db'.rows "crate", r "load" = load.value db' r := by
  obtain ⟨db', h, h1, h2⟩ : ∃ db', (app b).flush 2 ((engine b).deletions collector 100 dropped kindDb) = .ok (some db') ∧
      ((db'.rows "crate").map (fun r => (r "id", r "load")) = [(.int 2, .int 0)] ∧
      (db'.rows "thing").map (fun r => (r "id", r "crate_id")) = [(.int 1, .null)]) := flush_of (by cases b <;> decide +kernel)
  exact ⟨db', h, h1, h2, (C93_flush_partial (A := app b) (P := collector) (by decide) (fits b) (by decide) (by unfold KeysOk; decide) (by unfold KeysApart; decide)
    (by unfold RefsIntact; decide) (by decide) (flushable_load b _) (by unfold KeysUnique; cases b <;> decide +kernel) h).2⟩

/-- `C93_count` and `C93_sum_partial`: without flush(). -/
example (b : Backend) : AggOk size kindDb ∧ AggOk weight kindDb ∧ collector.Spares size ∧ collector.Spares weight ∧
    (∀ f ∈ collector.refs, f.on = .setNull → (f.table, f.col) ∉ S) ∧ IntClosed b decls S ∧
    (((engine b).deletions collector 100 [("family", [.int 1])] kindDb).rows "crate").map (fun r => (r "size", r "weight")) =
      [(.int 1, .int 3), (.int 0, .int 0)] :=
  ⟨by unfold AggOk; decide, by unfold AggOk; decide, by unfold Collector.Spares; decide, by unfold Collector.Spares; decide, by decide,
    S_closed b, by cases b <;> decide +kernel⟩

/-- `C93_exactly`, `C93_unreferenced`: a case in which delete() succeeds, with what goes, and one in which it raises ProtectedError. -/
example (b : Backend) : collector.Doomed kindDb "family" [.int 1] "thing" (.int 3) ∧ (∃ db', (engine b).deleteObjects collector 100 "family" [.int 1] kindDb = .ok db') ∧
    (match (engine b).deleteObjects { collector with refs := ⟨"thing", "kind_id", "kind", .protect, none⟩ :: collector.refs } 100 "family" [.int 1] kindDb with
      | .error (.collect .protectedError) => true
      | _ => false) = true := by
  have h1 : collector.Doomed kindDb "family" [.int 1] "kind" (.int 3) :=
    .cascade (f := ⟨"kind", "family_id", "family", .cascade, none⟩) (r := Demo.row [("id", .int 3), ("family_id", .int 1)]) (by decide) rfl
      (.given (List.mem_singleton.2 rfl)) (by simp [kindDb]) ⟨rfl, by decide, by simp⟩
  have h2 : collector.Doomed kindDb "family" [.int 1] "thing" (.int 3) :=
    .cascade (f := ⟨"thing", "kind_id", "kind", .cascade, none⟩) (r := (trow 3 2 5).set "kind_id" (.int 3)) (by decide) rfl
      h1 (by simp [kindDb]) ⟨rfl, by decide, by simp⟩
  refine ⟨h2, ?_, by cases b <;> decide +kernel⟩
  have h : (match (engine b).deleteObjects collector 100 "family" [.int 1] kindDb with
    | .ok _ => true
    | .error _ => false) = true := by cases b <;> decide +kernel
  cases he : (engine b).deleteObjects collector 100 "family" [.int 1] kindDb with
  | ok db' => exact ⟨db', rfl⟩
  | error e => rw [he] at h; cases h

end Crates

/-! ## Photos and tags -/
namespace Album
set_option maxRecDepth 100000

/-- The intermediate table that Django makes: links go with the photo and with the tag. -/
def collector (on : OnDelete) : Collector where
  pk _ := "id"
  refs := [⟨"photo_tags", "photo_id", "photo", on, none⟩, ⟨"photo_tags", "tag_id", "tag", on, none⟩]

theorem fits (b : Backend) : (collector .cascade).Fits (engine b) labels where
  order := fun _ _ h => h
  pks := by decide
  keys := fun t => unmanaged b _ _
  cols := fun f _ => ⟨unmanaged b _ _, fun _ _ => unmanaged b _ _⟩
  links := fun _ _ _ _ _ _ => unmanaged b _ _
  nulls := by decide

/-- `C93_flush_partial` for a ManyToManyField: tag 1 is deleted, and photo 1 has no labels any more. -/
example (b : Backend) : ∃ db', (app b).flush 2 ((engine b).deletions (collector .cascade) 100 [("tag", [.int 1])] db) = .ok (some db') ∧
    (db'.rows "photo").map (fun r => r "labels") = [.text "", .text ""] ∧ db'.rows "photo_tags" = [] ∧
    ∀ r ∈ db'.rows "photo", r "labels" = labels.value db' r := by
  obtain ⟨db', h, h1, h2⟩ : ∃ db', (app b).flush 2 ((engine b).deletions (collector .cascade) 100 [("tag", [.int 1])] db) = .ok (some db') ∧
      ((db'.rows "photo").map (fun r => r "labels") = [.text "", .text ""] ∧ (db'.rows "photo_tags").isEmpty = true) :=
    flush_of (by cases b <;> decide +kernel)
  exact ⟨db', h, h1, List.isEmpty_iff.1 h2, (C93_flush_partial (A := app b) (P := collector .cascade) (by decide) (fits b) (by decide) (by unfold KeysOk; decide)
    (by unfold KeysApart; decide) (by unfold RefsIntact; decide) (by decide) (flushable b _)
    (unique_of_ids b (by cases b <;> decide +kernel)) h).2⟩

/-- A project whose intermediate model is declared with DO_NOTHING. -/
theorem nothing_facts (b : Backend) : ((engine b).deletions (collector .doNothing) 100 [("tag", [.int 1])] db).dirty = [] ∧
    (((engine b).deletions (collector .doNothing) 100 [("tag", [.int 1])] db).rows "tag").map (fun r => r "id") = [.int 2] ∧
    ∃ r ∈ ((engine b).deletions (collector .doNothing) 100 [("tag", [.int 1])] db).rows "photo",
      r "labels" ≠ labels.value ((engine b).deletions (collector .doNothing) 100 [("tag", [.int 1])] db) r := by
  cases b <;> decide +kernel

end Album

/-- **C93 is violated** for many-to-many relations whose intermediate model is declared with DO_NOTHING: there is no trigger for deletions from
the other table, and nothing happens to the links. The stored value is out of date, and there is no marker. (Where the database has a
foreign key constraint, it refuses the deletion; with `db_constraint=False` there is none.) -/
theorem C93_violated (b : Backend) : ∃ (E : Engine) (D : List Denorm) (cb : Callback) (P : Collector) (ds : List (TableName × List Val)) (db0 : Db),
    E.backend = b ∧ Installed E D ∧ WellDeclared E.backend D cb ∧ KeysWatched cb ∧ NoReentry E ∧ (∀ f ∈ P.refs, f.on = .doNothing) ∧
    KeysOk cb db0 ∧ KeysApart cb db0 ∧ RefsIntact cb db0 ∧ (∀ r ∈ db0.rows cb.model.table, r cb.field = cb.value db0 r) ∧
    (E.deletions P 100 ds db0).dirty = [] ∧
    ∃ r ∈ (E.deletions P 100 ds db0).rows cb.model.table, r cb.field ≠ cb.value (E.deletions P 100 ds db0) r := by
  obtain ⟨h1, _, h2⟩ := Album.nothing_facts b
  exact ⟨Album.engine b, Album.decls, Album.labels, Album.collector .doNothing, [("tag", [.int 1])], Album.db, rfl, rfl, Album.wd b, by decide,
    Album.noReentry b, by decide, by unfold KeysOk; decide, by unfold KeysApart; decide, by unfold RefsIntact; decide, by decide, h1, h2⟩

namespace Chain
set_option maxRecDepth 100000

/-- The entries of a blog, with any `on_delete`. -/
def collector (on : OnDelete) : Collector where
  pk _ := "id"
  refs := [⟨"entry", "blog_id", "blog", on, none⟩]

theorem fits (b : Backend) (on : OnDelete) : (collector on).Fits (engine b) label where
  order := fun _ _ h => h
  pks := fun p hp => by
    have : ∀ p ∈ label.pks, p.2 = "id" := by decide
    exact (this p hp).symm
  keys := fun t => unmanaged b _ _
  cols := fun f _ => ⟨unmanaged b _ _, fun _ _ => unmanaged b _ _⟩
  links := fun _ _ _ _ _ _ => unmanaged b _ _
  nulls := by cases on <;> decide

theorem label_nolinks : ∀ d ∈ label.deps, d.dep.m2mTable = none := by decide

/-- `C93_flush_partial` for a ForeignKey with SET_NULL: the entry of the deleted blog stays, without a blog, and flush() empties its label. -/
example (b : Backend) : ∃ db', (app b).flush 2 ((engine b).deletions (collector .setNull) 100 [("blog", [.int 1])] db) = .ok (some db') ∧
    (((engine b).deletions (collector .setNull) 100 [("blog", [.int 1])] db).rows "entry").map (fun r => (r "blog_id", r "label")) = [(.null, .text "A")] ∧
    (db'.rows "entry").map (fun r => (r "blog_id", r "label")) = [(.null, .text "")] := by
  obtain ⟨db', h, h1⟩ : ∃ db', (app b).flush 2 ((engine b).deletions (collector .setNull) 100 [("blog", [.int 1])] db) = .ok (some db') ∧
      (db'.rows "entry").map (fun r => (r "blog_id", r "label")) = [(.null, .text "")] := flush_of (by cases b <;> decide +kernel)
  exact ⟨db', h, by cases b <;> decide +kernel, h1⟩

/-- The hypotheses of `C93_nothing_flush_partial` are met, with DO_NOTHING: the entry still names the blog, which is gone, and flush() empties its
label. -/
example (b : Backend) : ∃ db', (app b).flush 2 ((engine b).deletions (collector .doNothing) 100 [("blog", [.int 1])] db) = .ok (some db') ∧
    (db'.rows "entry").map (fun r => (r "blog_id", r "label")) = [(.int 1, .text "")] ∧ ∀ r ∈ db'.rows "entry", r "label" = label.value db' r := by
  obtain ⟨db', h, h1⟩ : ∃ db', (app b).flush 2 ((engine b).deletions (collector .doNothing) 100 [("blog", [.int 1])] db) = .ok (some db') ∧
      (db'.rows "entry").map (fun r => (r "blog_id", r "label")) = [(.int 1, .text "")] := flush_of (by cases b <;> decide +kernel)
  exact ⟨db', h, h1, (C93_nothing_flush_partial (A := app b) (P := collector .doNothing) (fits b _)
    (fun d hd tbl c k hm => by rw [label_nolinks d hd] at hm; cases hm) (fun d hd hm => absurd (label_nolinks d hd) hm)
    (by unfold KeysOk; decide) (by decide) (flushable_label b _ _) (by unfold KeysUnique; cases b <;> decide +kernel) h).2⟩

end Chain

end Denorm
