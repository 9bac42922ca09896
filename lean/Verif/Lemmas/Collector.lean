import Verif.Spec.Collector
import Verif.Lemmas.Rekey
import Verif.Lemmas.Transparent
import Verif.Spec.Finishes
/-!
# What `Collector` gathers, and what is left afterwards
-/
namespace Denorm

/-! ## Gathering -/

section
variable {P : Collector} {db : Db}

/-- Row `r`, which refers to an object that is to be deleted, is taken care of, or will be. -/
def Cared (P : Collector) (f : ModelRef) (r : Row) (G : Gathered) (T : List (TableName × List Val)) : Prop :=
  match f.on with
  | .cascade => (P.canFast f.table = true ∧ ∃ ks, (f, ks) ∈ G.fast ∧ f.points ks r = true) ∨ (f.table, r (P.pk f.table)) ∈ G.instances ∨
      ∃ q ∈ T, q.1 = f.table ∧ r (P.pk f.table) ∈ q.2
  | .setNull => ∃ ks, (f, ks) ∈ G.updates ∧ r (P.pk f.table) ∈ ks
  | .protect => False
  | .doNothing => True

/-- What is gathered is made of declared references. -/
structure Gathered.Proper (P : Collector) (G : Gathered) : Prop where
  updates : ∀ p ∈ G.updates, p.1 ∈ P.refs ∧ p.1.on = .setNull
  fast : ∀ p ∈ G.fast, p.1 ∈ P.refs ∧ p.1.on = .cascade ∧ P.canFast p.1.table = true

/-- `G'` has all that `G` has. -/
structure Gathered.Sub (G G' : Gathered) : Prop where
  instances : ∀ p ∈ G.instances, p ∈ G'.instances
  updates : ∀ p ∈ G.updates, p ∈ G'.updates
  fast : ∀ p ∈ G.fast, p ∈ G'.fast

theorem Gathered.Sub.rfl {G : Gathered} : G.Sub G := ⟨fun _ h => h, fun _ h => h, fun _ h => h⟩

theorem Gathered.Sub.trans {G1 G2 G3 : Gathered} (h1 : G1.Sub G2) (h2 : G2.Sub G3) : G1.Sub G3 :=
  ⟨fun p h => h2.instances p (h1.instances p h), fun p h => h2.updates p (h1.updates p h), fun p h => h2.fast p (h1.fast p h)⟩

theorem Cared.mono {f : ModelRef} {r : Row} {G G' : Gathered} {T T' : List (TableName × List Val)} (hG : G.Sub G')
    (hT : ∀ q ∈ T, q.1 = f.table → r (P.pk f.table) ∈ q.2 → (f.table, r (P.pk f.table)) ∈ G'.instances ∨ ∃ q' ∈ T', q'.1 = f.table ∧ r (P.pk f.table) ∈ q'.2)
    (h : Cared P f r G T) : Cared P f r G' T' := by
  unfold Cared at h ⊢
  cases ho : f.on with
  | cascade =>
    simp only [ho] at h
    rcases h with ⟨h1, ks, h2, h3⟩ | h | ⟨q, hq, h1, h2⟩
    · exact .inl ⟨h1, ks, hG.fast _ h2, h3⟩
    · exact .inr (.inl (hG.instances _ h))
    · exact .inr (hT q hq h1 h2)
  | setNull => simp only [ho] at h; obtain ⟨ks, h1, h2⟩ := h; exact ⟨ks, hG.updates _ h1, h2⟩
  | protect => simp only [ho] at h
  | doNothing => trivial

theorem relate_spec {ks : List Val} : ∀ {fs : List ModelRef} {G G' : Gathered} {T : List (TableName × List Val)},
    P.relate db ks fs G = .ok (T, G') → (∀ f ∈ fs, f ∈ P.refs) → G.Proper P →
    G'.Proper P ∧ G.Sub G' ∧ G'.instances = G.instances ∧
    ∀ f ∈ fs, ∀ r ∈ db.rows f.table, f.points ks r = true → Cared P f r G' T
  | [], G, G', T, h, _, hp => by
    simp only [Collector.relate, Except.ok.injEq, Prod.mk.injEq] at h
    obtain ⟨rfl, rfl⟩ := h
    exact ⟨hp, .rfl, rfl, by simp⟩
  | f :: fs, G, G', T, h, hf, hp => by
    have hf' := fun g hg => hf g (List.mem_cons_of_mem _ hg)
    have hf0 := hf f (List.mem_cons_self ..)
    simp only [Collector.relate] at h
    cases ho : f.on with
    | doNothing =>
      simp only [ho] at h
      obtain ⟨h1, h2, h3, h4⟩ := relate_spec h hf' hp
      refine ⟨h1, h2, h3, fun g hg r hr hpt => ?_⟩
      rcases List.mem_cons.1 hg with rfl | hg
      · simp only [Cared, ho]
      · exact h4 g hg r hr hpt
    | protect =>
      simp only [ho] at h
      by_cases ha : (db.rows f.table).any (f.points ks) = true
      · simp [ha] at h
      · rw [if_neg ha] at h
        obtain ⟨h1, h2, h3, h4⟩ := relate_spec h hf' hp
        refine ⟨h1, h2, h3, fun g hg r hr hpt => ?_⟩
        rcases List.mem_cons.1 hg with rfl | hg
        · exact absurd (List.any_eq_true.2 ⟨r, hr, hpt⟩) ha
        · exact h4 g hg r hr hpt
    | setNull =>
      simp only [ho] at h
      obtain ⟨h1, h2, h3, h4⟩ := relate_spec h hf' ⟨fun p hpm => by
        rcases List.mem_append.1 hpm with hpm | hpm
        · exact hp.updates p hpm
        · simp only [List.mem_singleton] at hpm
          subst hpm; exact ⟨hf0, ho⟩, hp.fast⟩
      refine ⟨h1, ⟨h2.instances, fun p hpm => h2.updates p (List.mem_append_left _ hpm), h2.fast⟩, h3, fun g hg r hr hpt => ?_⟩
      rcases List.mem_cons.1 hg with rfl | hg
      · simp only [Cared, ho]
        exact ⟨_, h2.updates _ (List.mem_append_right _ (List.mem_singleton.2 rfl)), List.mem_map.2 ⟨r, List.mem_filter.2 ⟨hr, hpt⟩, rfl⟩⟩
      · exact h4 g hg r hr hpt
    | cascade =>
      simp only [ho] at h
      by_cases hc : P.canFast f.table = true
      · rw [if_pos hc] at h
        obtain ⟨h1, h2, h3, h4⟩ := relate_spec h hf' ⟨hp.updates, fun p hpm => by
          rcases List.mem_append.1 hpm with hpm | hpm
          · exact hp.fast p hpm
          · simp only [List.mem_singleton] at hpm
            subst hpm; exact ⟨hf0, ho, hc⟩⟩
        refine ⟨h1, ⟨h2.instances, h2.updates, fun p hpm => h2.fast p (List.mem_append_left _ hpm)⟩, h3, fun g hg r hr hpt => ?_⟩
        rcases List.mem_cons.1 hg with rfl | hg
        · simp only [Cared, ho]
          exact .inl ⟨hc, _, h2.fast _ (List.mem_append_right _ (List.mem_singleton.2 rfl)), hpt⟩
        · exact h4 g hg r hr hpt
      · rw [if_neg hc] at h
        cases hr' : P.relate db ks fs G with
        | error e => rw [hr'] at h; cases h
        | ok x =>
          obtain ⟨T1, G1⟩ := x
          rw [hr'] at h
          simp only [Except.ok.injEq, Prod.mk.injEq] at h
          obtain ⟨rfl, rfl⟩ := h
          obtain ⟨h1, h2, h3, h4⟩ := relate_spec hr' hf' hp
          refine ⟨h1, h2, h3, fun g hg r hr hpt => ?_⟩
          rcases List.mem_cons.1 hg with rfl | hg
          · simp only [Cared, ho]
            exact .inr (.inr ⟨_, List.mem_cons_self .., rfl, List.mem_map.2 ⟨r, List.mem_filter.2 ⟨hr, hpt⟩, rfl⟩⟩)
          · exact (h4 g hg r hr hpt).mono .rfl fun q hq e1 e2 => .inr ⟨q, List.mem_cons_of_mem _ hq, e1, e2⟩

theorem points_mono {f : ModelRef} {k : Val} {ks : List Val} (hk : k ∈ ks) {r : Row} (h : f.points [k] r = true) : f.points ks r = true := by
  unfold ModelRef.points at h ⊢
  rw [Bool.and_eq_true] at h ⊢
  refine ⟨List.any_eq_true.2 ⟨k, hk, ?_⟩, h.2⟩
  simpa using h.1

/-- Everything that refers to an object that is to be deleted is taken care of. -/
theorem collect_spec : ∀ {n : Nat} {T : List (TableName × List Val)} {G G' : Gathered}, P.collect db n T G = .ok G' → G.Proper P →
    (∀ p ∈ G.instances, ∀ f ∈ P.refs, f.target = p.1 → ∀ r ∈ db.rows f.table, f.points [p.2] r = true → Cared P f r G T) →
    G'.Proper P ∧ G.Sub G' ∧ (∀ q ∈ T, ∀ k ∈ q.2, (q.1, k) ∈ G'.instances) ∧
    ∀ p ∈ G'.instances, ∀ f ∈ P.refs, f.target = p.1 → ∀ r ∈ db.rows f.table, f.points [p.2] r = true → Cared P f r G' []
  | _, [], G, G', h, hp, hc => by
    simp only [Collector.collect, Except.ok.injEq] at h
    subst h
    exact ⟨hp, .rfl, by simp, hc⟩
  | 0, _ :: _, G, G', h, _, _ => by simp [Collector.collect] at h
  | n + 1, (t, ks) :: T, G, G', h, hp, hc => by
    simp only [Collector.collect] at h
    generalize hnew : (ks.filter fun k => decide ((t, k) ∉ G.instances)) = new at h
    have hin : ∀ k ∈ ks, k ∈ new ∨ (t, k) ∈ G.instances := by
      intro k hk
      by_cases hi : (t, k) ∈ G.instances
      · exact .inr hi
      · left; rw [← hnew]; exact List.mem_filter.2 ⟨hk, by simpa using hi⟩
    by_cases h0 : new = []
    · rw [if_pos h0] at h
      have old : ∀ k ∈ ks, (t, k) ∈ G.instances := fun k hk => (hin k hk).resolve_left (by rw [h0]; simp)
      obtain ⟨h1, h2, h3, h4⟩ := collect_spec h hp fun p hpm f hf ht r hr hpt => (hc p hpm f hf ht r hr hpt).mono .rfl fun q hq e1 e2 => by
        rcases List.mem_cons.1 hq with rfl | hq
        · left
          have : f.table = t := e1.symm
          rw [this] at e2 ⊢
          exact old _ e2
        · exact .inr ⟨q, hq, e1, e2⟩
      refine ⟨h1, h2, fun q hq k hk => ?_, h4⟩
      rcases List.mem_cons.1 hq with rfl | hq
      · exact h2.instances _ (old k hk)
      · exact h3 q hq k hk
    · rw [if_neg h0] at h
      cases hr' : P.relate db new (P.refs.filter fun f => decide (f.target = t)) { G with instances := G.instances ++ new.map fun k => (t, k) } with
      | error e => rw [hr'] at h; cases h
      | ok x =>
        obtain ⟨S, G1⟩ := x
        rw [hr'] at h
        simp only at h
        obtain ⟨r1, r2, r3, r4⟩ := relate_spec hr' (fun f hf => (List.mem_filter.1 hf).1) ⟨hp.updates, hp.fast⟩
        have s1 : G.Sub G1 := ⟨fun p hpm => r2.instances p (List.mem_append_left _ hpm), r2.updates, r2.fast⟩
        have new1 : ∀ k ∈ new, (t, k) ∈ G1.instances := fun k hk =>
          r2.instances _ (List.mem_append_right _ (List.mem_map.2 ⟨k, hk, rfl⟩))
        have all1 : ∀ k ∈ ks, (t, k) ∈ G1.instances := fun k hk => (hin k hk).elim (new1 k) (s1.instances _)
        obtain ⟨h1, h2, h3, h4⟩ := collect_spec h r1 (by
          intro p hpm f hf ht r hr hpt
          rw [r3] at hpm
          rcases List.mem_append.1 hpm with hpm | hpm
          · refine (hc p hpm f hf ht r hr hpt).mono s1 fun q hq e1 e2 => ?_
            rcases List.mem_cons.1 hq with rfl | hq
            · left
              have : f.table = t := e1.symm
              rw [this] at e2 ⊢
              exact all1 _ e2
            · exact .inr ⟨q, List.mem_append_right _ hq, e1, e2⟩
          · obtain ⟨k, hk, rfl⟩ := List.mem_map.1 hpm
            exact (r4 f (List.mem_filter.2 ⟨hf, by simpa using ht⟩) r hr (points_mono hk hpt)).mono .rfl fun q hq e1 e2 =>
              .inr ⟨q, List.mem_append_left _ (List.mem_append_right _ hq), e1, e2⟩)
        refine ⟨h1, s1.trans h2, fun q hq k hk => ?_, h4⟩
        rcases List.mem_cons.1 hq with rfl | hq
        · exact h2.instances _ (all1 k hk)
        · exact h3 q (List.mem_append_right _ hq) k hk

end

/-! ## Exactly what goes -/

section
variable {P : Collector} {db : Db}

theorem points_iff {f : ModelRef} {ks : List Val} {r : Row} : f.points ks r = true ↔ ∃ k ∈ ks, f.Refers k r := by
  unfold ModelRef.points ModelRef.Refers
  rw [Bool.and_eq_true, List.any_eq_true]
  cases hct : f.ct with
  | none =>
    simp only [Val.sqlEq_iff, and_true, reduceCtorEq, false_implies, implies_true]
    constructor
    · rintro ⟨k, hk, rfl, hn⟩; exact ⟨_, hk, rfl, hn⟩
    · rintro ⟨k, hk, rfl, hn⟩; exact ⟨_, hk, rfl, hn⟩
  | some p =>
    obtain ⟨c, n⟩ := p
    simp only [Val.sqlEq_iff, Option.some.injEq]
    constructor
    · rintro ⟨⟨k, hk, rfl, hn⟩, h1, _⟩
      exact ⟨_, hk, rfl, hn, by rintro p rfl; exact h1⟩
    · rintro ⟨k, hk, rfl, hn, h1⟩
      have := h1 _ rfl
      exact ⟨⟨_, hk, rfl, hn⟩, this, by rw [this]; simp⟩

/-- What has been gathered goes, or is cleared because of what goes. -/
structure Gathered.Sound (P : Collector) (db : Db) (Dm : TableName → Val → Prop) (G : Gathered) : Prop where
  instances : ∀ p ∈ G.instances, Dm p.1 p.2
  fast : ∀ p ∈ G.fast, ∀ k ∈ p.2, Dm p.1.target k
  updates : ∀ p ∈ G.updates, ∀ x ∈ p.2, ∃ r ∈ db.rows p.1.table, r (P.pk p.1.table) = x ∧ ∃ k, Dm p.1.target k ∧ p.1.Refers k r

theorem relate_sound {Dm : TableName → Val → Prop} {t : TableName} {ks : List Val}
    (hD : ∀ f ∈ P.refs, f.on = .cascade → ∀ k, Dm f.target k → ∀ r ∈ db.rows f.table, f.Refers k r → Dm f.table (r (P.pk f.table)))
    (hk : ∀ k ∈ ks, Dm t k) : ∀ {fs : List ModelRef} {G G' : Gathered} {S : List (TableName × List Val)},
    P.relate db ks fs G = .ok (S, G') → (∀ f ∈ fs, f ∈ P.refs ∧ f.target = t) → G.Sound P db Dm → G'.Sound P db Dm ∧ ∀ q ∈ S, ∀ k ∈ q.2, Dm q.1 k
  | [], G, G', S, h, _, hs => by
    simp only [Collector.relate, Except.ok.injEq, Prod.mk.injEq] at h
    obtain ⟨rfl, rfl⟩ := h
    exact ⟨hs, by simp⟩
  | f :: fs, G, G', S, h, hf, hs => by
    have hf' := fun g hg => hf g (List.mem_cons_of_mem _ hg)
    obtain ⟨hf0, hft⟩ := hf f (List.mem_cons_self ..)
    simp only [Collector.relate] at h
    cases ho : f.on with
    | doNothing => simp only [ho] at h; exact relate_sound hD hk h hf' hs
    | protect =>
      simp only [ho] at h
      by_cases ha : (db.rows f.table).any (f.points ks) = true
      · simp [ha] at h
      · rw [if_neg ha] at h; exact relate_sound hD hk h hf' hs
    | setNull =>
      simp only [ho] at h
      refine relate_sound hD hk h hf' ⟨hs.instances, hs.fast, fun p hp => ?_⟩
      rcases List.mem_append.1 hp with hp | hp
      · exact hs.updates p hp
      · simp only [List.mem_singleton] at hp
        subst hp
        intro x hx
        obtain ⟨r, hr, rfl⟩ := List.mem_map.1 hx
        obtain ⟨hr, hpt⟩ := List.mem_filter.1 hr
        obtain ⟨k, hkk, hrf⟩ := points_iff.1 hpt
        exact ⟨r, hr, rfl, k, by rw [hft]; exact hk k hkk, hrf⟩
    | cascade =>
      simp only [ho] at h
      by_cases hc : P.canFast f.table = true
      · rw [if_pos hc] at h
        refine relate_sound hD hk h hf' ⟨hs.instances, fun p hp => ?_, hs.updates⟩
        rcases List.mem_append.1 hp with hp | hp
        · exact hs.fast p hp
        · simp only [List.mem_singleton] at hp
          subst hp
          intro k hkk; rw [hft]; exact hk k hkk
      · rw [if_neg hc] at h
        cases hr' : P.relate db ks fs G with
        | error e => rw [hr'] at h; cases h
        | ok x =>
          obtain ⟨T1, G1⟩ := x
          rw [hr'] at h
          simp only [Except.ok.injEq, Prod.mk.injEq] at h
          obtain ⟨rfl, rfl⟩ := h
          obtain ⟨h1, h2⟩ := relate_sound hD hk hr' hf' hs
          refine ⟨h1, fun q hq => ?_⟩
          rcases List.mem_cons.1 hq with rfl | hq
          · intro x hx
            obtain ⟨r, hr, rfl⟩ := List.mem_map.1 hx
            obtain ⟨hr, hpt⟩ := List.mem_filter.1 hr
            obtain ⟨k, hkk, hrf⟩ := points_iff.1 hpt
            exact hD f hf0 ho k (by rw [hft]; exact hk k hkk) r hr hrf
          · exact h2 q hq

theorem collect_sound {Dm : TableName → Val → Prop}
    (hD : ∀ f ∈ P.refs, f.on = .cascade → ∀ k, Dm f.target k → ∀ r ∈ db.rows f.table, f.Refers k r → Dm f.table (r (P.pk f.table)))
    (hP : ∀ p ∈ P.parents, ∀ k, Dm p.1 k → Dm p.2 k) : ∀ {n : Nat} {T : List (TableName × List Val)} {G G' : Gathered},
    P.collect db n T G = .ok G' → (∀ q ∈ T, ∀ k ∈ q.2, Dm q.1 k) → G.Sound P db Dm → G'.Sound P db Dm
  | _, [], G, G', h, _, hs => by
    simp only [Collector.collect, Except.ok.injEq] at h
    subst h; exact hs
  | 0, _ :: _, G, G', h, _, _ => by simp [Collector.collect] at h
  | n + 1, (t, ks) :: T, G, G', h, hT, hs => by
    simp only [Collector.collect] at h
    generalize hnew : (ks.filter fun k => decide ((t, k) ∉ G.instances)) = new at h
    have hk : ∀ k ∈ new, Dm t k := fun k hk => by
      rw [← hnew] at hk
      exact hT _ (List.mem_cons_self ..) k (List.mem_filter.1 hk).1
    have hT' := fun q hq => hT q (List.mem_cons_of_mem _ hq)
    by_cases h0 : new = []
    · rw [if_pos h0] at h
      exact collect_sound hD hP h hT' hs
    · rw [if_neg h0] at h
      cases hr' : P.relate db new (P.refs.filter fun f => decide (f.target = t)) { G with instances := G.instances ++ new.map fun k => (t, k) } with
      | error e => rw [hr'] at h; cases h
      | ok x =>
        obtain ⟨S, G1⟩ := x
        rw [hr'] at h
        simp only at h
        obtain ⟨h1, h2⟩ := relate_sound hD hk hr' (fun f hf => by simpa using hf) ⟨fun p hp => by
          rcases List.mem_append.1 hp with hp | hp
          · exact hs.instances p hp
          · obtain ⟨k, hkk, rfl⟩ := List.mem_map.1 hp
            exact hk k hkk, hs.fast, hs.updates⟩
        refine collect_sound hD hP h (fun q hq => ?_) h1
        rcases List.mem_append.1 hq with hq | hq
        · rcases List.mem_append.1 hq with hq | hq
          · obtain ⟨p, hp, rfl⟩ := List.mem_map.1 hq
            obtain ⟨hp, hpt⟩ := List.mem_filter.1 hp
            simp only [decide_eq_true_eq] at hpt
            exact fun k hkk => hP p hp k (by rw [hpt]; exact hk k hkk)
          · exact h2 q hq
        · exact hT' q hq

/-- The parents of the children. -/
theorem collect_parents : ∀ {n : Nat} {T : List (TableName × List Val)} {G G' : Gathered}, P.collect db n T G = .ok G' → G.Proper P →
    (∀ p ∈ G.instances, ∀ q ∈ P.parents, q.1 = p.1 → (q.2, p.2) ∈ G.instances ∨ ∃ x ∈ T, x.1 = q.2 ∧ p.2 ∈ x.2) →
    G.Sub G' ∧ (∀ q ∈ T, ∀ k ∈ q.2, (q.1, k) ∈ G'.instances) ∧ ∀ p ∈ G'.instances, ∀ q ∈ P.parents, q.1 = p.1 → (q.2, p.2) ∈ G'.instances
  | _, [], G, G', h, _, hc => by
    simp only [Collector.collect, Except.ok.injEq] at h
    subst h
    exact ⟨.rfl, by simp, fun p hp q hq e => (hc p hp q hq e).resolve_right (by simp)⟩
  | 0, _ :: _, G, G', h, _, _ => by simp [Collector.collect] at h
  | n + 1, (t, ks) :: T, G, G', h, hp, hc => by
    simp only [Collector.collect] at h
    generalize hnew : (ks.filter fun k => decide ((t, k) ∉ G.instances)) = new at h
    have hin : ∀ k ∈ ks, k ∈ new ∨ (t, k) ∈ G.instances := by
      intro k hk
      by_cases hi : (t, k) ∈ G.instances
      · exact .inr hi
      · left; rw [← hnew]; exact List.mem_filter.2 ⟨hk, by simpa using hi⟩
    by_cases h0 : new = []
    · rw [if_pos h0] at h
      have old : ∀ k ∈ ks, (t, k) ∈ G.instances := fun k hk => (hin k hk).resolve_left (by rw [h0]; simp)
      obtain ⟨h1, h2, h3⟩ := collect_parents h hp fun p hpm q hq e => by
        rcases hc p hpm q hq e with h | ⟨x, hx, e1, e2⟩
        · exact .inl h
        · rcases List.mem_cons.1 hx with rfl | hx
          · left; have := old _ e2; rw [← e1]; exact this
          · exact .inr ⟨x, hx, e1, e2⟩
      refine ⟨h1, fun q hq k hk => ?_, h3⟩
      rcases List.mem_cons.1 hq with rfl | hq
      · exact h1.instances _ (old k hk)
      · exact h2 q hq k hk
    · rw [if_neg h0] at h
      cases hr' : P.relate db new (P.refs.filter fun f => decide (f.target = t)) { G with instances := G.instances ++ new.map fun k => (t, k) } with
      | error e => rw [hr'] at h; cases h
      | ok x =>
        obtain ⟨S, G1⟩ := x
        rw [hr'] at h
        simp only at h
        obtain ⟨r1, r2, r3, _⟩ := relate_spec hr' (fun f hf => (List.mem_filter.1 hf).1) ⟨hp.updates, hp.fast⟩
        have s1 : G.Sub G1 := ⟨fun p hpm => r2.instances p (List.mem_append_left _ hpm), r2.updates, r2.fast⟩
        have all1 : ∀ k ∈ ks, (t, k) ∈ G1.instances := fun k hk => (hin k hk).elim
          (fun hk => r2.instances _ (List.mem_append_right _ (List.mem_map.2 ⟨k, hk, rfl⟩))) (s1.instances _)
        obtain ⟨h1, h2, h3⟩ := collect_parents h r1 (by
          intro p hpm q hq e
          rw [r3] at hpm
          rcases List.mem_append.1 hpm with hpm | hpm
          · rcases hc p hpm q hq e with h | ⟨x, hx, e1, e2⟩
            · exact .inl (s1.instances _ h)
            · rcases List.mem_cons.1 hx with rfl | hx
              · left; have := all1 _ e2; rw [← e1]; exact this
              · exact .inr ⟨x, List.mem_append_right _ hx, e1, e2⟩
          · obtain ⟨k, hk, rfl⟩ := List.mem_map.1 hpm
            refine .inr ⟨(q.2, new), List.mem_append_left _ (List.mem_append_left _ (List.mem_map.2 ⟨q, List.mem_filter.2 ⟨hq, by simpa using e⟩, rfl⟩)),
              rfl, hk⟩)
        refine ⟨s1.trans h1, fun q hq k hk => ?_, h3⟩
        rcases List.mem_cons.1 hq with rfl | hq
        · exact h1.instances _ (all1 k hk)
        · exact h2 q (List.mem_append_right _ hq) k hk

/-- What goes has been gathered. -/
theorem doomed_gathered {n : Nat} {t : TableName} {keys : List Val} {G : Gathered} (h : P.collect db n [(t, keys)] {} = .ok G) {u : TableName} {k : Val}
    (hd : P.Doomed db t keys u k) :
    (u, k) ∈ G.instances ∨ P.canFast u = true ∧ ∃ f ks, (f, ks) ∈ G.fast ∧ f.table = u ∧ ∃ r ∈ db.rows u, r (P.pk u) = k ∧ f.points ks r = true := by
  obtain ⟨_, _, h3, h4⟩ := collect_spec h ⟨by simp, by simp⟩ (by simp)
  obtain ⟨_, _, h6⟩ := collect_parents h ⟨by simp, by simp⟩ (by simp)
  induction hd with
  | given hk => exact .inl (h3 _ (List.mem_cons_self ..) _ hk)
  | @cascade f k r hf hon _ hr hrf ih =>
    rcases ih with ih | ⟨ih, _⟩
    · have := h4 _ ih f hf rfl r hr (points_iff.2 ⟨k, List.mem_singleton.2 rfl, hrf⟩)
      unfold Cared at this
      simp only [hon] at this
      rcases this with ⟨h1, ks, h2, h3⟩ | h1 | ⟨q, hq, _⟩
      · exact .inr ⟨h1, f, ks, h2, rfl, r, hr, rfl, h3⟩
      · exact .inl h1
      · simp at hq
    · simp only [Collector.canFast, Bool.and_eq_true, List.all_eq_true, Bool.or_eq_true, decide_eq_true_eq] at ih
      rcases ih.1.2 f hf with h0 | h0
      · exact absurd rfl h0
      · rw [hon] at h0; cases h0
  | @parent p k hp _ ih =>
    rcases ih with ih | ⟨ih, _⟩
    · exact .inl (h6 _ ih p hp rfl)
    · simp only [Collector.canFast, Bool.and_eq_true, List.all_eq_true, decide_eq_true_eq] at ih
      exact absurd rfl (ih.2 p hp)

end

/-! ## What the statements leave, triggers apart -/

section
variable {P : Collector}

theorem aloneAll_append (ss ss' : List Stmt) (rows : TableName → List Row) : aloneAll (ss ++ ss') rows = aloneAll ss' (aloneAll ss rows) := by
  induction ss generalizing rows with
  | nil => rfl
  | cons s ss ih => simp only [List.cons_append, aloneAll, ih]

theorem alone_delete (t0 : TableName) (w : Row → Bool) (rows : TableName → List Row) (t : TableName) :
    (Stmt.delete t0 w).alone rows t = if t = t0 then (rows t).filter (fun r => !w r) else rows t := rfl

theorem alone_update (t0 : TableName) (w : Row → Bool) (σ : Int → Row → Row) (rows : TableName → List Row) (t : TableName) :
    (Stmt.update t0 w σ).alone rows t = if t = t0 then (rows t).map (fun r => if w r then σ 0 r else r) else rows t := rfl

theorem alone_deletes {α : Type} (tbl : α → TableName) (w : α → Row → Bool) : ∀ (l : List α) (rows : TableName → List Row) (t : TableName) (r : Row),
    r ∈ aloneAll (l.map fun a => Stmt.delete (tbl a) (w a)) rows t ↔ r ∈ rows t ∧ ∀ a ∈ l, tbl a = t → w a r = false
  | [], rows, t, r => by simp [aloneAll]
  | a :: l, rows, t, r => by
    simp only [List.map_cons, aloneAll]
    rw [alone_deletes tbl w l]
    rw [alone_delete]
    simp only [List.mem_cons, forall_eq_or_imp]
    by_cases ht : t = tbl a
    · rw [if_pos ht, List.mem_filter]
      constructor
      · rintro ⟨⟨h1, h2⟩, h3⟩
        exact ⟨h1, fun _ => by simpa using h2, h3⟩
      · rintro ⟨h1, h2, h3⟩
        exact ⟨⟨h1, by simpa using h2 ht.symm⟩, h3⟩
    · rw [if_neg ht]
      constructor
      · rintro ⟨h1, h3⟩
        exact ⟨h1, fun h => absurd h.symm ht, h3⟩
      · rintro ⟨h1, _, h3⟩
        exact ⟨h1, h3⟩

/-- Row `r'` is row `r` after some of its references have been cleared. -/
structure Cleared (P : Collector) (t : TableName) (us : List (ModelRef × List Val)) (r r' : Row) : Prop where
  cols : ∀ c, r' c = r c ∨ r' c = .null
  pk : r' (P.pk t) = r (P.pk t)
  null : ∀ u ∈ us, u.1.table = t → r (P.pk t) ∈ u.2 → r' u.1.col = .null
  why : ∀ c, r' c ≠ r c → ∃ u ∈ us, u.1.table = t ∧ u.1.col = c ∧ r (P.pk t) ∈ u.2

theorem alone_clears : ∀ (us : List (ModelRef × List Val)) (rows : TableName → List Row) (t : TableName),
    (∀ u ∈ us, u.1.col ≠ P.pk u.1.table) →
    Pw (Cleared P t us) (rows t) (aloneAll (us.map fun p => Stmt.update p.1.table (fun r => decide (r (P.pk p.1.table) ∈ p.2)) fun _ r => r.set p.1.col .null) rows t)
  | [], rows, t, _ => by
    simp only [List.map_nil, aloneAll]
    exact Pw.refl (fun r => ⟨fun _ => .inl rfl, rfl, by simp, fun _ h => absurd rfl h⟩) _
  | u :: us, rows, t, hu => by
    simp only [List.map_cons, aloneAll]
    have ih := alone_clears us (Stmt.alone (Stmt.update u.1.table (fun r => decide (r (P.pk u.1.table) ∈ u.2)) fun _ r => r.set u.1.col .null) rows) t
      fun v hv => hu v (List.mem_cons_of_mem _ hv)
    have h1 : Pw (Cleared P t [u]) (rows t)
        (Stmt.alone (Stmt.update u.1.table (fun r => decide (r (P.pk u.1.table) ∈ u.2)) fun _ r => r.set u.1.col .null) rows t) := by
      rw [alone_update]
      by_cases ht : t = u.1.table
      · rw [if_pos ht]
        generalize rows t = l
        have hne := hu u (List.mem_cons_self ..)
        induction l with
        | nil => exact .nil
        | cons r l ih =>
          refine .cons ?_ ih
          by_cases hm : r (P.pk u.1.table) ∈ u.2
          · simp only [decide_eq_true hm, if_true]
            refine ⟨fun c => ?_, ?_, ?_, fun c hc => ?_⟩
            · by_cases hc : c = u.1.col
              · right; subst hc; simp [Row.set]
              · left; simp [Row.set, hc]
            · rw [ht]; simp [Row.set, Ne.symm hne]
            · intro v hv _ _
              simp only [List.mem_singleton] at hv
              subst hv; simp [Row.set]
            · refine ⟨u, List.mem_singleton.2 rfl, ht.symm, ?_, by rw [ht]; exact hm⟩
              refine Classical.byContradiction fun h0 => hc ?_
              simp [Row.set, Ne.symm h0]
          · simp only [decide_eq_false hm, Bool.false_eq_true, if_false]
            refine ⟨fun _ => .inl rfl, rfl, ?_, fun _ h => absurd rfl h⟩
            intro v hv _ h0
            simp only [List.mem_singleton] at hv
            subst hv; rw [ht] at h0; exact absurd h0 hm
      · rw [if_neg ht]
        refine Pw.refl (fun r => ⟨fun _ => .inl rfl, rfl, ?_, fun _ h => absurd rfl h⟩) _
        intro v hv h0
        simp only [List.mem_singleton] at hv
        subst hv; exact absurd h0.symm ht
    refine h1.trans (fun a b c hab hbc => ⟨fun x => ?_, hbc.pk.trans hab.pk, fun v hv ht hk => ?_, fun x hx => ?_⟩) ih
    · rcases hbc.cols x with h | h
      · rcases hab.cols x with h' | h'
        · exact .inl (h.trans h')
        · exact .inr (h.trans h')
      · exact .inr h
    · rcases List.mem_cons.1 hv with rfl | hv
      · have := hab.null v (List.mem_singleton.2 rfl) ht hk
        rcases hbc.cols v.1.col with h | h
        · exact h.trans this
        · exact h
      · exact hbc.null v hv ht (by rw [hab.pk]; exact hk)
    · by_cases h0 : b x = a x
      · obtain ⟨v, hv, h1, h2, h3⟩ := hbc.why x (by rw [h0]; exact hx)
        exact ⟨v, List.mem_cons_of_mem _ hv, h1, h2, by rw [← hab.pk]; exact h3⟩
      · obtain ⟨v, hv, h1⟩ := hab.why x h0
        rw [List.mem_singleton.1 hv] at h1
        exact ⟨u, List.mem_cons_self .., h1⟩

/-- Row `r` of table `t` stays and becomes `r'`. -/
structure Outlives (P : Collector) (G : Gathered) (t : TableName) (r r' : Row) : Prop extends Cleared P t G.updates r r' where
  slow : (t, r (P.pk t)) ∉ G.instances
  fast : ∀ p ∈ G.fast, p.1.table = t → p.1.points p.2 r = false

theorem alone_stmts {G : Gathered} (hO : ∀ l, ∀ t ∈ l, t ∈ P.order l) (hu : ∀ u ∈ G.updates, u.1.col ≠ P.pk u.1.table)
    (rows : TableName → List Row) (t : TableName) :
    (∀ r' ∈ aloneAll (G.stmts P) rows t, ∃ r ∈ rows t, Outlives P G t r r') ∧
    ∀ r ∈ rows t, (t, r (P.pk t)) ∉ G.instances → (∀ p ∈ G.fast, p.1.table = t → p.1.points p.2 r = false) →
      ∃ r' ∈ aloneAll (G.stmts P) rows t, Outlives P G t r r' := by
  unfold Gathered.stmts
  rw [aloneAll_append, aloneAll_append]
  have hF := alone_deletes (fun p : ModelRef × List Val => p.1.table) (fun p => p.1.points p.2) G.fast rows t
  generalize aloneAll (G.fast.map fun p => Stmt.delete p.1.table (p.1.points p.2)) rows = rows1 at hF
  have hU := alone_clears G.updates rows1 t hu
  generalize aloneAll (G.updates.map fun p => Stmt.update p.1.table (fun r => decide (r (P.pk p.1.table) ∈ p.2)) fun _ r => r.set p.1.col .null) rows1 =
    rows2 at hU
  have hD := fun r => alone_deletes (fun t : TableName => t) (fun t r => decide ((t, r (P.pk t)) ∈ G.instances)) (P.order (G.instances.map (·.1))) rows2 t r
  constructor
  · intro r' hr'
    obtain ⟨h1, h2⟩ := (hD r').1 hr'
    obtain ⟨r, hr, hc⟩ := hU.right h1
    obtain ⟨h3, h4⟩ := (hF r).1 hr
    refine ⟨r, h3, hc, fun hi => ?_, h4⟩
    have := h2 t (hO _ _ (List.mem_map.2 ⟨_, hi, rfl⟩)) rfl
    rw [hc.pk] at this
    simp [hi] at this
  · intro r hr hi hf
    obtain ⟨r', hr', hc⟩ := hU.left ((hF r).2 ⟨hr, hf⟩)
    refine ⟨r', (hD r').2 ⟨hr', ?_⟩, hc, hi, hf⟩
    rintro t' _ rfl
    rw [hc.pk]
    simpa using hi

end

/-! ## With triggers -/

section
variable {P : Collector} {E : Engine} {cb : Callback} {db db' : Db} {fuel : Nat}

theorem runAll_runs : ∀ {ss : List Stmt} {db db' : Db}, E.runAll fuel ss db = .ok db' → E.Runs fuel ss db db'
  | [], db, db', h => by
    simp only [Engine.runAll, Except.ok.injEq] at h
    exact h.symm
  | s :: ss, db, db', h => by
    simp only [Engine.runAll] at h
    cases he : E.exec fuel s db with
    | error e => rw [he] at h; cases h
    | ok db1 => rw [he] at h; exact ⟨db1, he, runAll_runs h⟩

theorem runs_plain {K : TableName → Col → Prop} (hK : ∀ t c, Managed E t c → K t c) : ∀ {ss : List Stmt} {db db' : Db} {rows : TableName → List Row},
    (∀ s ∈ ss, s.FullyBlind (K s.table)) → (∀ t, Pw (Row.Agrees (K t)) (rows t) (db.rows t)) → E.Runs fuel ss db db' →
    ∀ t, Pw (Row.Agrees (K t)) (aloneAll ss rows t) (db'.rows t)
  | [], db, db', rows, _, h0, h, t => by
    simp only [Engine.Runs] at h
    subst h; exact h0 t
  | s :: ss, db, db', rows, hb, h0, h, t => by
    obtain ⟨db1, h1, h2⟩ := h
    have hs := hb s (List.mem_cons_self ..)
    refine runs_plain hK (fun s' hs' => hb s' (List.mem_cons_of_mem _ hs')) (fun t' => ?_) h2 t
    exact (alone_agrees hs h0 t').trans (fun a b c hab hbc x hx => (hab x hx).trans (hbc x hx)) (exec_plain hK hs.1 h1 t')

theorem points_agrees {f : ModelRef} (hc : ¬ Managed E f.table f.col ∧ ∀ p, f.ct = some p → ¬ Managed E f.table p.1) (ks : List Val) {r r' : Row}
    (h : Row.Agrees (Managed E f.table) r r') : f.points ks r = f.points ks r' := by
  unfold ModelRef.points
  rw [h f.col hc.1]
  cases hct : f.ct with
  | none => rfl
  | some p => simp only [h p.1 (hc.2 p hct)]

/-- A statement that deletes rows, or clears columns that are no primary keys. -/
def Removal (P : Collector) (s : Stmt) : Prop :=
  (∃ t w, s = .delete t w) ∨ ∃ f ∈ P.refs, f.on = .setNull ∧ ∃ w, s = .update f.table w fun _ r => r.set f.col .null

theorem removal_stmts {G : Gathered} (hG : G.Proper P) : ∀ s ∈ G.stmts P, Removal P s := by
  intro s hs
  simp only [Gathered.stmts, List.mem_append, List.mem_map] at hs
  rcases hs with (⟨p, _, rfl⟩ | ⟨p, hp, rfl⟩) | ⟨t, _, rfl⟩
  · exact .inl ⟨_, _, rfl⟩
  · exact .inr ⟨p.1, (hG.updates p hp).1, (hG.updates p hp).2, _, rfl⟩
  · exact .inl ⟨_, _, rfl⟩

theorem blind_stmts (hF : P.Fits E cb) {G : Gathered} (hG : G.Proper P) : ∀ s ∈ G.stmts P, s.FullyBlind (Managed E s.table) := by
  intro s hs
  simp only [Gathered.stmts, List.mem_append, List.mem_map] at hs
  rcases hs with (⟨p, hp, rfl⟩ | ⟨p, hp, rfl⟩) | ⟨t, _, rfl⟩
  · exact ⟨fun r r' h => points_agrees (hF.cols _ (hG.fast p hp).1) _ h, trivial⟩
  · refine ⟨fun _ _ r r' h c hc => ?_, fun r r' h => ?_⟩
    · simp only [Row.set]
      split
      · rfl
      · exact h c hc
    · simp only [Stmt.table] at h
      simp only [h _ (hF.keys _)]
  · refine ⟨fun r r' h => ?_, trivial⟩
    simp only [Stmt.table] at h
    simp only [h _ (hF.keys _)]

/-- What is left after the statements of a deletion: rows that were there before, some of them with references cleared. -/
theorem delete_rows (hF : P.Fits E cb) {G : Gathered} (hG : G.Proper P) (h : E.runAll fuel (G.stmts P) db = .ok db') (t : TableName) :
    (∀ r' ∈ db'.rows t, ∃ r ∈ db.rows t, ∃ r1, Outlives P G t r r1 ∧ Row.Agrees (Managed E t) r1 r') ∧
    ∀ r ∈ db.rows t, (t, r (P.pk t)) ∉ G.instances → (∀ p ∈ G.fast, p.1.table = t → p.1.points p.2 r = false) →
      ∃ r' ∈ db'.rows t, ∃ r1, Outlives P G t r r1 ∧ Row.Agrees (Managed E t) r1 r' := by
  have hp := runs_plain (K := Managed E) (fun _ _ h => h) (blind_stmts hF hG) (fun t => Pw.refl (fun r => Row.Agrees.refl r) _) (runAll_runs h) t
  obtain ⟨h1, h2⟩ := alone_stmts hF.order (fun u hu => hF.nulls _ (hG.updates u hu).1 (hG.updates u hu).2) db.rows t
  constructor
  · intro r' hr'
    obtain ⟨r1, hr1, ha⟩ := hp.right hr'
    obtain ⟨r, hr, ho⟩ := h1 r1 hr1
    exact ⟨r, hr, r1, ho, ha⟩
  · intro r hr hi hf
    obtain ⟨r1, hr1, ho⟩ := h2 r hr hi hf
    obtain ⟨r', hr', ha⟩ := hp.left hr1
    exact ⟨r', hr', r1, ho, ha⟩

/-- A reference that Django looks after does not point to a row that is deleted. -/
theorem guarded_stays (hF : P.Fits E cb) {G : Gathered} (hG : G.Proper P)
    (hC : ∀ p ∈ G.instances, ∀ f ∈ P.refs, f.target = p.1 → ∀ r ∈ db.rows f.table, f.points [p.2] r = true → Cared P f r G [])
    (h : E.runAll fuel (G.stmts P) db = .ok db') {f : ModelRef} (hf : f ∈ P.refs) {t target : TableName} {c : Col} (hg : f.Guards t c target)
    {r' : Row} (hr' : r' ∈ db'.rows t) (hn : r' c ≠ .null) :
    ∃ r ∈ db.rows t, (∀ x, ¬ Managed E t x → r' x = r x ∨ r' x = .null) ∧ r' (P.pk t) = r (P.pk t) ∧ r' c = r c ∧
      ((∃ o ∈ db.rows target, o (P.pk target) = r c) → ∃ o ∈ db'.rows target, o (P.pk target) = r' c) := by
  obtain ⟨rfl, rfl, rfl, hct, hon⟩ := hg
  obtain ⟨r, hr, r1, ho, ha⟩ := (delete_rows hF hG h f.table).1 r' hr'
  have hcol := (hF.cols f hf).1
  have e1 : r1 f.col = r' f.col := ha _ hcol
  have e2 : r1 f.col = r f.col := (ho.cols f.col).resolve_right (by rw [e1]; exact hn)
  refine ⟨r, hr, fun x hx => by rw [← ha x hx]; exact ho.cols x, by rw [← ha _ (hF.keys _)]; exact ho.pk, by rw [← e1, e2], ?_⟩
  rintro ⟨o, hom, hok⟩
  have hni : (f.target, o (P.pk f.target)) ∉ G.instances := by
    intro hi
    have hpt : f.points [o (P.pk f.target)] r = true := by
      unfold ModelRef.points
      rw [hct, Bool.and_eq_true]
      refine ⟨?_, rfl⟩
      simp only [List.any_cons, List.any_nil, Bool.or_false]
      exact Val.sqlEq_iff.2 ⟨hok.symm, by rw [← e2, e1]; exact hn⟩
    have hc := hC _ hi f hf rfl r hr hpt
    unfold Cared at hc
    cases hon' : f.on with
    | cascade =>
      simp only [hon'] at hc
      rcases hc with ⟨_, ks, h1, h2⟩ | h1 | ⟨q, hq, _⟩
      · have := ho.fast _ h1 rfl
        rw [h2] at this; cases this
      · exact ho.slow h1
      · simp at hq
    | setNull =>
      simp only [hon'] at hc
      obtain ⟨ks, h1, h2⟩ := hc
      exact hn (by rw [← e1]; exact ho.null _ h1 rfl h2)
    | protect => simp only [hon'] at hc
    | doNothing => exact hon hon'
  obtain ⟨o', ho', o1, hs, hb⟩ := (delete_rows hF hG h f.target).2 o hom hni (by
    intro p hp ht
    have := (hG.fast p hp).2.2
    rw [ht] at this
    simp only [Collector.canFast, Bool.and_eq_true, List.all_eq_true, Bool.or_eq_true, decide_eq_true_eq] at this
    rcases this.1.2 f hf with h0 | h0
    · exact absurd rfl h0
    · exact absurd h0 hon)
  exact ⟨o', ho', by rw [← hb _ (hF.keys _), hs.pk, hok, ← e2, e1]⟩

/-- References are in order after a deletion if they were before. -/
theorem delete_intact (hT : ∀ d ∈ cb.deps, d.dep.this = cb.model) (hF : P.Fits E cb) (hGd : P.Guards cb) {G : Gathered} (hG : G.Proper P)
    (hC : ∀ p ∈ G.instances, ∀ f ∈ P.refs, f.target = p.1 → ∀ r ∈ db.rows f.table, f.points [p.2] r = true → Cared P f r G [])
    (h : E.runAll fuel (G.stmts P) db = .ok db') (hR : RefsIntact cb db) : RefsIntact cb db' := by
  intro r' hr' d hd hdg
  have hth := hT d hd
  have hgd := hGd d hd
  have hpo : P.pk d.dep.other.table = d.dep.other.pk := hF.pks (_, _) (List.mem_cons_of_mem _ (List.mem_map.2 ⟨d, hd, rfl⟩))
  have hpm : P.pk cb.model.table = cb.model.pk := hF.pks (_, _) (List.mem_cons_self ..)
  have link : ∀ {tbl : TableName} {c k : Col}, d.dep.m2mTable = some (tbl, c, k) → (∃ g ∈ P.refs, g.Guards tbl k d.dep.other.table) →
      LinkDangles d.dep tbl c k db' r' → ∃ r ∈ db.rows cb.model.table, LinkDangles d.dep tbl c k db r := by
    rintro tbl c k hm ⟨g, hg, hgg⟩ ⟨l', hl', hlr, hln, hlo⟩
    obtain ⟨l, hl, hx, _, e3, hyp⟩ := guarded_stays hF hG hC h hg hgg hl' hln
    obtain ⟨r, hr, r1, ho, ha⟩ := (delete_rows hF hG h cb.model.table).1 r' hr'
    have ek : r' cb.model.pk = r cb.model.pk := by rw [← hpm, ← ha _ (hF.keys _), ho.pk]
    refine ⟨r, hr, l, hl, ?_, by rw [← e3]; exact hln, fun o hom hok => ?_⟩
    · have hq := Val.sqlEq_iff.1 hlr
      have : l' c = l c := (hx c (hF.links d hd _ _ _ hm)).resolve_right hq.2
      rw [← this, hth, ← ek, ← hth]; exact hlr
    · obtain ⟨o', ho', hok'⟩ := hyp ⟨o, hom, by rw [hpo]; exact hok⟩
      exact hlo o' ho' (by rw [← hpo]; exact hok')
  rcases hf : d.dep.rel with f | f | (m | g) | (m | g)
  · simp only [Dep.Guarded, hf] at hgd
    obtain ⟨g, hg, hgg⟩ := hgd
    rw [hth] at hgg
    simp only [Dep.Dangles, hf] at hdg
    obtain ⟨r, hr, _, _, e3, hyp⟩ := guarded_stays hF hG hC h hg hgg hr' hdg.1
    refine hR r hr d hd ?_
    simp only [Dep.Dangles, hf]
    refine ⟨by rw [← e3]; exact hdg.1, fun o hom hok => ?_⟩
    obtain ⟨o', ho', hok'⟩ := hyp ⟨o, hom, by rw [hpo]; exact hok⟩
    exact hdg.2 o' ho' (by rw [← hpo]; exact hok')
  · simp [Dep.Dangles, hf] at hdg
  · simp only [Dep.Guarded, hf] at hgd
    simp only [Dep.Dangles, hf] at hdg
    obtain ⟨r, hr, hl⟩ := link (by simp [Dep.m2mTable, hf]) hgd hdg
    refine hR r hr d hd ?_
    simp only [Dep.Dangles, hf]; exact hl
  · simp [Dep.Dangles, hf] at hdg
  · simp only [Dep.Guarded, hf] at hgd
    simp only [Dep.Dangles, hf] at hdg
    obtain ⟨r, hr, hl⟩ := link (by simp [Dep.m2mTable, hf]) hgd hdg
    refine hR r hr d hd ?_
    simp only [Dep.Dangles, hf]; exact hl
  · simp [Dep.Dangles, hf] at hdg

/-! ## Tracking -/

theorem keepsOld_removal (hpk : ∀ p ∈ cb.pks, P.pk p.1 = p.2) (hnull : ∀ f ∈ P.refs, f.on = .setNull → f.col ≠ P.pk f.table) {s : Stmt}
    (hs : Removal P s) {op : RowOp} (ho : TopOp s op) : KeepsOldKeys cb s.table op := by
  rcases hs with ⟨t, w, rfl⟩ | ⟨f, hf, hn, w, rfl⟩
  · simp only [TopOp] at ho
    subst ho
    exact ⟨by simp, by simp⟩
  · obtain ⟨i, rfl⟩ := ho
    refine ⟨by simp, ?_⟩
    intro i' σ' e p hp ht x r
    simp only [RowOp.upd.injEq] at e
    rw [← e.2]
    refine Row.set_away ?_
    simp only [Stmt.table] at ht
    rw [← hpk p hp, ht]
    exact fun h0 => hnull f hf hn h0.symm

theorem looseInv_removal {rank : String → Nat} {C : Db → Row → Prop} (hT : Tracks E cb) (hL : LooksAtKeys cb) (hR : Ranked E rank)
    (hC : TrackedProp cb C) {s : Stmt} (hs : ∀ op, TopOp s op → KeepsOldKeys cb s.table op) : StepInv E (LooseInv E cb rank s C) where
  perm := looseInv_perm
  writeNil := looseInv_writeNil
  writeOp := fun {fr t op ops W db} h => by
    refine looseInv_writeOp hT hL hC ?_ h
    rcases h.items _ (List.mem_cons_self ..) with ⟨ht, _, h3⟩ | ⟨col, hm, hops, _⟩
    · have := hs op (h3 op (List.mem_cons_self ..))
      rw [← ht] at this
      exact keyed_removal h.keys h.apart this.1 this.2
    · obtain ⟨i, σ, hop, hσ⟩ := hops op (List.mem_cons_self ..)
      refine keyed_removal h.keys h.apart (by simp [hop]) ?_
      intro i' σ' e p hp ht x r
      rw [hop] at e
      simp only [RowOp.upd.injEq] at e
      rw [← e.2]
      exact hσ x r p.2 fun hc => hT.pks p hp (by rw [ht, hc]; exact hm)
  markValues := looseInv_marks hC fun _ _ => covers_values
  markSelect := looseInv_marks hC fun _ hr => covers_select hr
  update := fun _ => looseInv_update hR

theorem loose_removals {C : Db → Row → Prop} (hT : Tracks E cb) (hL : LooksAtKeys cb) (hN : NoReentry E) (hC : TrackedProp cb C) :
    ∀ {ss : List Stmt} {db db' : Db}, (∀ s ∈ ss, ∀ op, TopOp s op → KeepsOldKeys cb s.table op) → E.runAll fuel ss db = .ok db' →
    KeysOk cb db → KeysApart cb db →
    (∀ r ∈ db.rows cb.model.table, Marked cb.model db r ∨ C db r ∨ ∃ d ∈ cb.deps, d.dep.Dangles db r) →
    KeysOk cb db' ∧ KeysApart cb db' ∧
      ∀ r ∈ db'.rows cb.model.table, Marked cb.model db' r ∨ C db' r ∨ ∃ d ∈ cb.deps, d.dep.Dangles db' r
  | [], db, db', _, h, hK, hA, hg => by
    simp only [Engine.runAll, Except.ok.injEq] at h
    subst h; exact ⟨hK, hA, hg⟩
  | s :: ss, db, db', hs, h, hK, hA, hg => by
    simp only [Engine.runAll] at h
    cases he : E.exec fuel s db with
    | error e => rw [he] at h; cases h
    | ok db1 =>
      rw [he] at h
      obtain ⟨rank, hR⟩ := hN.ranked
      have := (looseInv_removal hT hL hR hC (hs s (List.mem_cons_self ..))).exec he
        ⟨hK, hA, itemOk_start E rank s db, fun r hr => (hg r hr).imp id .inr⟩
      refine loose_removals hT hL hN hC (fun s' hs' => hs s' (List.mem_cons_of_mem _ hs')) h this.keys this.apart fun r hr => ?_
      rcases this.good r hr with h1 | ⟨it, h2, _⟩ | h4
      · exact .inl h1
      · simp at h2
      · exact .inr h4

theorem deleteObjects_ok {t : TableName} {keys : List Val} (h : E.deleteObjects P fuel t keys db = .ok db') :
    ∃ G, P.collect db fuel [(t, keys)] {} = .ok G ∧ E.runAll fuel (G.stmts P) db = .ok db' := by
  unfold Engine.deleteObjects at h
  cases hc : P.collect db fuel [(t, keys)] {} with
  | error e => rw [hc] at h; cases h
  | ok G =>
    rw [hc] at h
    simp only at h
    cases hr : E.runAll fuel (G.stmts P) db with
    | error e => rw [hr] at h; cases h
    | ok db1 =>
      rw [hr] at h
      simp only [Except.ok.injEq] at h
      exact ⟨G, rfl, by rw [hr, h]⟩

theorem collected {t : TableName} {keys : List Val} {G : Gathered} (h : P.collect db fuel [(t, keys)] {} = .ok G) :
    G.Proper P ∧ (∀ k ∈ keys, (t, k) ∈ G.instances) ∧
    ∀ p ∈ G.instances, ∀ f ∈ P.refs, f.target = p.1 → ∀ r ∈ db.rows f.table, f.points [p.2] r = true → Cared P f r G [] := by
  obtain ⟨h1, _, h3, h4⟩ := collect_spec h ⟨by simp, by simp⟩ (by simp)
  exact ⟨h1, fun k hk => h3 _ (List.mem_cons_self ..) k hk, h4⟩

/-- One call of delete(). -/
theorem delete_tracked {D : List Denorm} (hE : Installed E D) (hD : WellDeclared E.backend D cb) (hW : KeysWatched cb) (hN : NoReentry E)
    (hF : P.Fits E cb) (hGd : P.Guards cb) {C : Db → Row → Prop} (hC : TrackedProp cb C) {t : TableName} {keys : List Val}
    (h : E.deleteObjects P fuel t keys db = .ok db') (hK : KeysOk cb db) (hA : KeysApart cb db) (hR : RefsIntact cb db)
    (hg : ∀ r ∈ db.rows cb.model.table, Marked cb.model db r ∨ C db r) :
    KeysOk cb db' ∧ KeysApart cb db' ∧ RefsIntact cb db' ∧ ∀ r ∈ db'.rows cb.model.table, Marked cb.model db' r ∨ C db' r := by
  obtain ⟨G, hc, hr⟩ := deleteObjects_ok h
  obtain ⟨hG, _, hcl⟩ := collected hc
  have hR' := delete_intact (tracks_of_installed hE hD).this hF hGd hG hcl hr hR
  have := loose_removals (cb := cb.withKeys) (tracks_of_installed hE (wellDeclared_withKeys hD hW)) (looksAtKeys_withKeys cb) hN
    (trackedProp_withKeys hC) (fun s hs op ho => by
      have hk := keepsOld_removal (cb := cb) hF.pks hF.nulls (removal_stmts hG s hs) ho
      unfold KeepsOldKeys at hk ⊢
      rw [withKeys_pks]; exact hk) hr
    (by unfold KeysOk; rw [withKeys_pks]; exact hK) (by unfold KeysApart; rw [withKeys_pks]; exact hA) (fun r hr => (hg r hr).imp id .inl)
  obtain ⟨h1, h2, h3⟩ := this
  refine ⟨by unfold KeysOk at h1; rw [withKeys_pks] at h1; exact h1, by unfold KeysApart at h2; rw [withKeys_pks] at h2; exact h2, hR', fun r hr => ?_⟩
  rcases h3 r hr with h3 | h3 | ⟨d, hd, h3⟩
  · exact .inl h3
  · exact .inr h3
  · obtain ⟨d0, h0, rfl⟩ := mem_withKeys.1 hd
    rw [DepRead.withKey_dep] at h3
    exact absurd h3 (hR' r hr d0 h0)

/-! ## It comes to an end -/

theorem relate_ends (ks : List Val) : ∀ (fs : List ModelRef) (G : Gathered),
    P.relate db ks fs G = .error .protectedError ∨ ∃ S G', P.relate db ks fs G = .ok (S, G') ∧ G'.instances = G.instances ∧
      ∀ q ∈ S, ∃ f ∈ fs, q.1 = f.table ∧ ∀ k ∈ q.2, ∃ r ∈ db.rows f.table, k = r (P.pk f.table)
  | [], G => .inr ⟨[], G, rfl, rfl, by simp⟩
  | f :: fs, G => by
    have up : ∀ G1 : Gathered, G1.instances = G.instances →
        P.relate db ks fs G1 = .error .protectedError ∨ ∃ S G', P.relate db ks fs G1 = .ok (S, G') ∧ G'.instances = G.instances ∧
          ∀ q ∈ S, ∃ f' ∈ f :: fs, q.1 = f'.table ∧ ∀ k ∈ q.2, ∃ r ∈ db.rows f'.table, k = r (P.pk f'.table) := by
      intro G1 h1
      refine (relate_ends ks fs G1).imp id ?_
      rintro ⟨S, G', h2, h3, h4⟩
      exact ⟨S, G', h2, h3.trans h1, fun q hq => (h4 q hq).imp fun f' hf' => ⟨List.mem_cons_of_mem _ hf'.1, hf'.2⟩⟩
    cases ho : f.on with
    | doNothing => simp only [Collector.relate, ho]; exact up G rfl
    | protect =>
      simp only [Collector.relate, ho]
      by_cases ha : (db.rows f.table).any (f.points ks) = true
      · rw [if_pos ha]; exact .inl rfl
      · rw [if_neg ha]; exact up G rfl
    | setNull => simp only [Collector.relate, ho]; exact up _ rfl
    | cascade =>
      simp only [Collector.relate, ho]
      by_cases hc : P.canFast f.table = true
      · rw [if_pos hc]; exact up _ rfl
      · rw [if_neg hc]
        rcases up G rfl with h | ⟨S, G', h2, h3, h4⟩
        · rw [h]; exact .inl rfl
        · rw [h2]
          refine .inr ⟨_, _, rfl, h3, fun q hq => ?_⟩
          rcases List.mem_cons.1 hq with rfl | hq
          · refine ⟨f, List.mem_cons_self .., rfl, fun k hk => ?_⟩
            obtain ⟨r, hr, rfl⟩ := List.mem_map.1 hk
            exact ⟨r, (List.mem_filter.1 hr).1, rfl⟩
          · exact h4 q hq

theorem missing_less {U I : List (TableName × Val)} {x : TableName × Val} (hx : x ∈ U) (h : x ∉ I) {J : List (TableName × Val)} (hJ : ∀ y ∈ I, y ∈ J) (hxJ : x ∈ J) :
    (U.filter fun y => decide (y ∉ J)).length < (U.filter fun y => decide (y ∉ I)).length := by
  induction U with
  | nil => simp at hx
  | cons u U ih =>
    have le : (U.filter fun y => decide (y ∉ J)).length ≤ (U.filter fun y => decide (y ∉ I)).length := by
      clear ih hx
      induction U with
      | nil => simp
      | cons u U ih =>
        by_cases hu : u ∈ I
        · simp [hu, hJ u hu]; simpa using ih
        · by_cases hu' : u ∈ J
          · simp [hu, hu']; have := by simpa using ih
            omega
          · simp [hu, hu']; simpa using ih
    by_cases hu : u ∈ I
    · have hxu : x ≠ u := fun e => h (e ▸ hu)
      have := ih ((List.mem_cons.1 hx).resolve_left hxu)
      simp [hu, hJ u hu]; simpa using this
    · by_cases hu' : u ∈ J
      · simp [hu, hu']; have := by simpa using le
        omega
      · have hxu : x ≠ u := fun e => hu' (e ▸ hxJ)
        have := ih ((List.mem_cons.1 hx).resolve_left hxu)
        simp [hu, hu']; simpa using this

/-- What can be collected: objects of these tables with these keys. -/
theorem collect_ends {Ts : List TableName} {Ks : List Val} (hT : (∀ f ∈ P.refs, f.table ∈ Ts) ∧ ∀ p ∈ P.parents, p.2 ∈ Ts)
    (hK : ∀ f ∈ P.refs, ∀ r ∈ db.rows f.table, r (P.pk f.table) ∈ Ks) : ∀ (m : Nat) (T : List (TableName × List Val)) (G : Gathered),
    ((Ts.flatMap fun t => Ks.map fun k => (t, k)).filter fun y => decide (y ∉ G.instances)).length ≤ m → (∀ q ∈ T, q.1 ∈ Ts ∧ ∀ k ∈ q.2, k ∈ Ks) →
    ∃ (x : Except CollectErr Gathered) (N : Nat), x ≠ .error .depth ∧ ∀ n, N ≤ n → P.collect db n T G = x := by
  intro m
  induction m with
  | zero =>
    intro T
    induction T with
    | nil => intro G _ _; exact ⟨.ok G, 0, by simp, fun n _ => by cases n <;> rfl⟩
    | cons q T ih =>
      intro G hm hq
      obtain ⟨x, N, hx, h⟩ := ih G hm fun q' hq' => hq q' (List.mem_cons_of_mem _ hq')
      refine ⟨x, N + 1, hx, fun n hn => ?_⟩
      obtain ⟨n, rfl⟩ : ∃ n', n = n' + 1 := ⟨n - 1, by omega⟩
      obtain ⟨t, ks⟩ := q
      have h0 : (ks.filter fun k => decide ((t, k) ∉ G.instances)) = [] := by
        rw [List.filter_eq_nil_iff]
        intro k hk
        have : (t, k) ∉ ((Ts.flatMap fun t => Ks.map fun k => (t, k)).filter fun y => decide (y ∉ G.instances)) := by
          rw [List.length_eq_zero_iff.1 (Nat.le_zero.1 hm)]; simp
        simp only [List.mem_filter, List.mem_flatMap, List.mem_map, not_and] at this
        exact this ⟨t, (hq _ (List.mem_cons_self ..)).1, k, (hq _ (List.mem_cons_self ..)).2 k hk, rfl⟩
      simp only [Collector.collect, h0, if_true]
      exact h n (by omega)
  | succ m ihm =>
    intro T
    induction T with
    | nil => intro G _ _; exact ⟨.ok G, 0, by simp, fun n _ => by cases n <;> rfl⟩
    | cons q T ih =>
      intro G hm hq
      obtain ⟨t, ks⟩ := q
      have hq0 := hq _ (List.mem_cons_self ..)
      generalize hnew : (ks.filter fun k => decide ((t, k) ∉ G.instances)) = new
      by_cases h0 : new = []
      · obtain ⟨x, N, hx, h⟩ := ih G hm fun q' hq' => hq q' (List.mem_cons_of_mem _ hq')
        refine ⟨x, N + 1, hx, fun n hn => ?_⟩
        obtain ⟨n, rfl⟩ : ∃ n', n = n' + 1 := ⟨n - 1, by omega⟩
        simp only [Collector.collect, hnew, h0, if_true]
        exact h n (by omega)
      · rcases relate_ends (P := P) (db := db) new (P.refs.filter fun f => decide (f.target = t))
            { G with instances := G.instances ++ new.map fun k => (t, k) } with h1 | ⟨S, G', h1, h2, h3⟩
        · refine ⟨.error .protectedError, 1, by simp, fun n hn => ?_⟩
          obtain ⟨n, rfl⟩ : ∃ n', n = n' + 1 := ⟨n - 1, by omega⟩
          simp only [Collector.collect, hnew, if_neg h0, h1]
        · obtain ⟨k, hk⟩ : ∃ k, k ∈ new := List.exists_mem_of_ne_nil _ h0
          have hk' := hk
          rw [← hnew, List.mem_filter] at hk'
          have hnk : ∀ k ∈ new, k ∈ Ks := fun k hk => by
            rw [← hnew, List.mem_filter] at hk
            exact hq0.2 k hk.1
          have lt := missing_less (U := Ts.flatMap fun t => Ks.map fun k => (t, k)) (I := G.instances) (x := (t, k)) (J := G'.instances)
            (List.mem_flatMap.2 ⟨t, hq0.1, List.mem_map.2 ⟨k, hnk k hk, rfl⟩⟩) (by simpa using hk'.2)
            (fun y hy => by rw [h2]; exact List.mem_append_left _ hy)
            (by rw [h2]; exact List.mem_append_right _ (List.mem_map.2 ⟨k, hk, rfl⟩))
          obtain ⟨x, N, hx, h⟩ := ihm (((P.parents.filter fun p => decide (p.1 = t)).map fun p => (p.2, new)) ++ S ++ T) G' (by omega) (by
            intro q hqm
            rcases List.mem_append.1 hqm with hqm | hqm
            · rcases List.mem_append.1 hqm with hqm | hqm
              · obtain ⟨p, hp, rfl⟩ := List.mem_map.1 hqm
                exact ⟨hT.2 p (List.mem_filter.1 hp).1, hnk⟩
              · obtain ⟨f, hf, e, hr⟩ := h3 q hqm
                have hf' := (List.mem_filter.1 hf).1
                refine ⟨e ▸ hT.1 f hf', fun k hk => ?_⟩
                obtain ⟨r, hr, rfl⟩ := hr k hk
                exact hK f hf' r hr
            · exact hq q (List.mem_cons_of_mem _ hqm))
          refine ⟨x, N + 1, hx, fun n hn => ?_⟩
          obtain ⟨n, rfl⟩ : ∃ n', n = n' + 1 := ⟨n - 1, by omega⟩
          simp only [Collector.collect, hnew, if_neg h0, h1]
          exact h n (by omega)

theorem runAll_ends (hE : ∀ s db, E.Finishes s db) : ∀ (ss : List Stmt) (db : Db), ∃ db' N, ∀ n, N ≤ n → E.runAll n ss db = .ok db'
  | [], db => ⟨db, 0, fun _ _ => rfl⟩
  | s :: ss, db => by
    obtain ⟨db1, N1, h1⟩ := hE s db
    obtain ⟨db', N2, h2⟩ := runAll_ends hE ss db1
    refine ⟨db', N1 + N2, fun n hn => ?_⟩
    simp only [Engine.runAll, h1 n (by omega)]
    exact h2 n (by omega)

end

end Denorm
