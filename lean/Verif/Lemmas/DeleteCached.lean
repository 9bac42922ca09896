import Verif.Lemmas.Collector
import Verif.Lemmas.Cached
import Verif.Spec.DeleteCached
/-!
# The statements of a deletion respect many-to-many constraints
-/
namespace Denorm

section
variable {P : Collector} {E : Engine} {cb : Callback} {db db' : Db} {fuel : Nat}

theorem runAll_snoc : ∀ {ss : List Stmt} {s : Stmt} {db db1 db2 : Db}, E.runAll fuel ss db = .ok db1 → E.exec fuel s db1 = .ok db2 →
    E.runAll fuel (ss ++ [s]) db = .ok db2
  | [], s, db, db1, db2, h1, h2 => by
    simp only [Engine.runAll, Except.ok.injEq] at h1
    subst h1
    simp only [List.nil_append, Engine.runAll, h2]
  | s0 :: ss, s, db, db1, db2, h1, h2 => by
    simp only [List.cons_append, Engine.runAll] at h1 ⊢
    cases he : E.exec fuel s0 db with
    | error e => rw [he] at h1; cases h1
    | ok db' => rw [he] at h1; exact runAll_snoc h1 h2

/-- The rows while objects are being deleted, after those of the models `pre`. -/
theorem alone_during {G : Gathered} (hu : ∀ u ∈ G.updates, u.1.col ≠ P.pk u.1.table) (pre : List TableName) (rows : TableName → List Row)
    (t : TableName) {r' : Row} (h : r' ∈ aloneAll ((G.fast.map fun p => Stmt.delete p.1.table (p.1.points p.2)) ++
      (G.updates.map fun p => Stmt.update p.1.table (fun r => decide (r (P.pk p.1.table) ∈ p.2)) fun _ r => r.set p.1.col .null) ++
      pre.map fun t => Stmt.delete t fun r => decide ((t, r (P.pk t)) ∈ G.instances)) rows t) :
    ∃ r ∈ rows t, Cleared P t G.updates r r' ∧ (t ∈ pre → (t, r (P.pk t)) ∉ G.instances) ∧
      ∀ p ∈ G.fast, p.1.table = t → p.1.points p.2 r = false := by
  rw [aloneAll_append, aloneAll_append] at h
  have hF := alone_deletes (fun p : ModelRef × List Val => p.1.table) (fun p => p.1.points p.2) G.fast rows t
  generalize aloneAll (G.fast.map fun p => Stmt.delete p.1.table (p.1.points p.2)) rows = rows1 at hF h
  have hU := alone_clears G.updates rows1 t hu
  generalize aloneAll (G.updates.map fun p => Stmt.update p.1.table (fun r => decide (r (P.pk p.1.table) ∈ p.2)) fun _ r => r.set p.1.col .null) rows1 =
    rows2 at hU h
  obtain ⟨h1, h2⟩ := (alone_deletes (fun t : TableName => t) (fun t r => decide ((t, r (P.pk t)) ∈ G.instances)) pre rows2 t r').1 h
  obtain ⟨r, hr, hc⟩ := hU.right h1
  obtain ⟨h3, h4⟩ := (hF r).1 hr
  refine ⟨r, h3, hc, fun hp hi => ?_, h4⟩
  have := h2 t hp rfl
  rw [hc.pk] at this
  simp [hi] at this

/-- Every statement of a deletion is legal when it is executed. -/
theorem legal_deletion (hF : P.Fits E cb) (hS : P.Sorted cb) (hGd : P.GuardsLinks cb) {G : Gathered} (hG : G.Proper P)
    (hC : ∀ p ∈ G.instances, ∀ f ∈ P.refs, f.target = p.1 → ∀ r ∈ db.rows f.table, f.points [p.2] r = true → Cared P f r G [])
    {ss ss' : List Stmt} {s : Stmt} (hss : G.stmts P = ss ++ s :: ss') {db1 : Db} (h : E.runAll fuel ss db = .ok db1) : LegalStmt E cb db1 s := by
  have guard : ∀ d ∈ cb.deps, ∀ tbl c k, d.dep.m2mTable = some (tbl, c, k) → ∃ g ∈ P.refs, g.Guards tbl k d.dep.other.table := by
    intro d hd tbl c k hm
    have := hGd d hd (by rw [hm]; simp)
    unfold Dep.Guarded at this
    unfold Dep.m2mTable at hm
    rcases hf : d.dep.rel with f | f | (m | g) | (m | g) <;> simp only [hf] at this hm
    · cases hm
    · cases hm
    · cases hm; exact this
    · cases hm
    · cases hm; exact this
    · cases hm
  have hb : ∀ s ∈ ss, s.FullyBlind (Managed E s.table) := fun s hs => blind_stmts hF hG s (by rw [hss]; exact List.mem_append_left _ hs)
  have hp := fun t => runs_plain (K := Managed E) (fun _ _ h => h) hb (fun t => Pw.refl (fun r => Row.Agrees.refl r) _) (runAll_runs h) t
  have hu : ∀ u ∈ G.updates, u.1.col ≠ P.pk u.1.table := fun u hu => hF.nulls _ (hG.updates u hu).1 (hG.updates u hu).2
  unfold Gathered.stmts at hss
  have slow : ∀ as, ss = (G.fast.map fun p => Stmt.delete p.1.table (p.1.points p.2)) ++
      (G.updates.map fun p => Stmt.update p.1.table (fun r => decide (r (P.pk p.1.table) ∈ p.2)) fun _ r => r.set p.1.col .null) ++ as →
      ((P.order (G.instances.map (·.1))).map fun t => Stmt.delete t fun r => decide ((t, r (P.pk t)) ∈ G.instances)) = as ++ s :: ss' →
      LegalStmt E cb db1 s := by
    intro as h1 h2
    subst h1
    obtain ⟨pre, post', ho, h3, h4⟩ := List.map_eq_append_iff.1 h2
    obtain ⟨t, post, rfl, rfl, h5⟩ := List.map_eq_cons_iff.1 h4
    intro d hd ht hm
    subst ht
    obtain ⟨⟨tbl, c, k⟩, hm⟩ := Option.ne_none_iff_exists'.1 hm
    obtain ⟨g, hg, rfl, rfl, hgt, hct, hon⟩ := guard d hd tbl c k hm
    refine ⟨fun o hom hw => ?_, fun col hmg r r' hr => ?_⟩
    · intro tbl' c' k' hm' l' hl' hq
      rw [hm] at hm'
      simp only [Option.some.injEq, Prod.mk.injEq] at hm'
      obtain ⟨rfl, rfl, rfl⟩ := hm'
      obtain ⟨l1, hl1, ha⟩ := (hp _).right hl'
      rw [← h3] at hl1
      obtain ⟨l, hl, hc, hslow, hfast⟩ := alone_during hu pre db.rows _ hl1
      obtain ⟨e1, e2⟩ := Val.sqlEq_iff.1 hq
      simp only [decide_eq_true_eq] at hw
      have e3 : l1 g.col = l' g.col := ha _ (hF.cols g hg).1
      have e4 : l g.col = o d.dep.other.pk := by
        rw [e1, ← e3]
        exact ((hc.cols g.col).resolve_right (by rw [e3, ← e1]; exact e2)).symm
      have hpk : P.pk d.dep.other.table = d.dep.other.pk := hF.pks (_, _) (List.mem_cons_of_mem _ (List.mem_map.2 ⟨d, hd, rfl⟩))
      have hcr := hC _ hw g hg hgt l hl (points_iff.2 ⟨_, List.mem_singleton.2 rfl, by rw [hpk]; exact e4, by rw [hpk]; exact e2, by simp [hct]⟩)
      unfold Cared at hcr
      cases hon' : g.on with
      | cascade =>
        simp only [hon'] at hcr
        rcases hcr with ⟨_, ks, h6, h7⟩ | h6 | ⟨q, hq, _⟩
        · have := hfast _ h6 rfl
          rw [h7] at this; cases this
        · exact hslow (hS d hd _ _ _ hm _ pre post (List.mem_map.2 ⟨_, h6, rfl⟩) ho) h6
        · simp at hq
      | setNull =>
        simp only [hon'] at hcr
        obtain ⟨ks, h6, h7⟩ := hcr
        have := hc.null _ h6 rfl h7
        exact e2 (by rw [e1, ← e3]; exact this)
      | protect => simp only [hon'] at hcr
      | doNothing => exact hon hon'
    · simp only [hr _ (fun e => hF.keys _ (e ▸ hmg))]
  rcases List.append_eq_append_iff.1 hss with ⟨as, h1, h2⟩ | ⟨bs, h1, h2⟩
  · exact slow as h1 h2
  · rcases List.cons_eq_append_iff.1 h2 with ⟨rfl, h3⟩ | ⟨bs', rfl, h3⟩
    · rw [List.append_nil] at h1
      exact slow [] (by rw [List.append_nil]; exact h1.symm) h3
    have hs : s ∈ (G.fast.map fun p => Stmt.delete p.1.table (p.1.points p.2)) ++
        (G.updates.map fun p => Stmt.update p.1.table (fun r => decide (r (P.pk p.1.table) ∈ p.2)) fun _ r => r.set p.1.col .null) := by
      rw [h1]; simp
    rcases List.mem_append.1 hs with hs | hs
    · obtain ⟨p, hpf, rfl⟩ := List.mem_map.1 hs
      intro d hd ht hm
      obtain ⟨⟨tbl, c, k⟩, hm⟩ := Option.ne_none_iff_exists'.1 hm
      obtain ⟨g, hg, rfl, rfl, hgt, hct, hon⟩ := guard d hd tbl c k hm
      have := (hG.fast p hpf).2.2
      simp only [Collector.canFast, Bool.and_eq_true, List.all_eq_true, Bool.or_eq_true, decide_eq_true_eq] at this
      rcases this.1.2 g hg with h0 | h0
      · exact absurd (hgt.trans ht) h0
      · exact absurd h0 hon
    · obtain ⟨p, hpu, rfl⟩ := List.mem_map.1 hs
      intro q hq ht x r
      refine Row.set_away ?_
      rw [← hF.pks q hq, ht]
      exact fun h0 => hu p hpu h0.symm

theorem runAll_tracked {C : Db → Row → Prop} (hT : Tracks E cb) (hN : NoReentry E) (hC : TrackedProp cb C) {all : List Stmt} {db0 : Db}
    (hL : ∀ {ss ss' : List Stmt} {s : Stmt} {db1 : Db}, all = ss ++ s :: ss' → E.runAll fuel ss db0 = .ok db1 → LegalStmt E cb db1 s) :
    ∀ {ss' ss : List Stmt} {db db' : Db}, all = ss ++ ss' → E.runAll fuel ss db0 = .ok db → E.runAll fuel ss' db = .ok db' → KeysOk cb db →
    (∀ r ∈ db.rows cb.model.table, Marked cb.model db r ∨ C db r) →
    KeysOk cb db' ∧ ∀ r ∈ db'.rows cb.model.table, Marked cb.model db' r ∨ C db' r
  | [], ss, db, db', _, _, h, hK, hg => by
    simp only [Engine.runAll, Except.ok.injEq] at h
    subst h; exact ⟨hK, hg⟩
  | s :: ss', ss, db, db', h0, h1, h, hK, hg => by
    simp only [Engine.runAll] at h
    cases he : E.exec fuel s db with
    | error e => rw [he] at h; cases h
    | ok db2 =>
      rw [he] at h
      obtain ⟨h2, h3⟩ := track_exec hT hN hC he (hL h0 h1) hK hg
      exact runAll_tracked hT hN hC hL (ss := ss ++ [s]) (by rw [h0]; simp) (runAll_snoc h1 he) h h2 h3

/-- A deletion is a sequence of statements like any other. -/
theorem cacheRun_delete {A : App} {om : OrmModel} (hF : P.Fits A.engine cb) (hS : P.Sorted cb) (hGd : P.GuardsLinks cb) (hN : P.SparesCached cb) {t : TableName} {keys : List Val}
    {st : CacheState} (h : A.engine.deleteObjects P A.fuel t keys st.db = .ok db') : CacheRun A cb om st { st with db := db' } := by
  obtain ⟨G, hc, hr⟩ := deleteObjects_ok h
  obtain ⟨hG, _, hcl⟩ := collected hc
  have all : ∀ {ss' ss : List Stmt} {db1 : Db}, G.stmts P = ss ++ ss' → A.engine.runAll A.fuel ss st.db = .ok db1 →
      A.engine.runAll A.fuel ss' db1 = .ok db' → CacheRun A cb om st { st with db := db1 } → CacheRun A cb om st { st with db := db' } := by
    intro ss'
    induction ss' with
    | nil =>
      intro ss db1 _ _ h2 h3
      simp only [Engine.runAll, Except.ok.injEq] at h2
      rw [← h2]; exact h3
    | cons s ss' ih =>
      intro ss db1 h0 h1 h2 h3
      simp only [Engine.runAll] at h2
      cases he : A.engine.exec A.fuel s db1 with
      | error e => rw [he] at h2; cases h2
      | ok db2 =>
        rw [he] at h2
        have hs : s ∈ G.stmts P := by rw [h0]; simp
        refine ih (ss := ss ++ [s]) (by rw [h0]; simp) ?_ h2 (.step h3 (.stmt (s := s) (legal_deletion hF hS hGd hG hcl h0 h1) ?_ ?_ he))
        · exact runAll_snoc h1 he
        · rcases removal_stmts hG s hs with ⟨t, w, rfl⟩ | ⟨f, hf, hn, w, rfl⟩
          · trivial
          · intro ht
            obtain ⟨n1, _, n3⟩ := hN f hf hn ht
            exact .inr fun x r => ⟨Row.set_away (Ne.symm n1), fun c hc => Row.set_away fun e => n3 (e ▸ hc)⟩
        · rcases removal_stmts hG s hs with ⟨t, w, rfl⟩ | ⟨f, hf, hn, w, rfl⟩
          · trivial
          · intro ht x r
            obtain ⟨n1, n2, n3⟩ := hN f hf hn ht
            exact ⟨Row.set_away (Ne.symm n1), fun c hc => Row.set_away fun e => hc.elim (fun h => n2 (e ▸ h)) fun h => n3 (e ▸ h)⟩
  exact all (ss := []) rfl rfl hr .refl

theorem cacheRun_trans {A : App} {om : OrmModel} {st st1 st2 : CacheState} (h1 : CacheRun A cb om st st1) (h2 : CacheRun A cb om st1 st2) :
    CacheRun A cb om st st2 := by
  induction h2 with
  | refl => exact h1
  | step _ h ih => exact .step ih h

theorem cacheRun_deletes {A : App} {om : OrmModel} (hF : P.Fits A.engine cb) (hS : P.Sorted cb) (hGd : P.GuardsLinks cb) (hN : P.SparesCached cb) {st st1 : CacheState}
    (h : DeleteRun A cb om P st st1) : CacheRun A cb om st st1 := by
  induction h with
  | refl => exact .refl
  | step _ h ih => exact .step ih h
  | delete _ h ih => exact cacheRun_trans ih (cacheRun_delete hF hS hGd hN h)

end
end Denorm
