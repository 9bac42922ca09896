import Verif.Lemmas.Loading
/-!
# Importing models: a whole program
-/
namespace Denorm
namespace Loading
variable {L L' : Loading} {all done : List ClassSrc} {T : Model}

theorem keyOf_iff {this m : Model} {s : String} : this.keyOf s = m.regKey ↔ NameMeans this s m := by
  rw [← calls_iff]
  simp [Model.calls, Model.regKey]

theorem meant_of_means {reg : List Model} {this o : Model} {r : OtherRef} (h : Means reg this r o) : Meant reg this r o := by
  cases r with
  | cls m => exact h
  | self => exact h
  | name s => exact ⟨h.1, (keyOf_iff.2 h.2.1).symm⟩

theorem means_of_meant (hf : Facts all) {this o : Model} {r : OtherRef} (h : Meant (all.map (·.model)) this r o) : Means (all.map (·.model)) this r o := by
  cases r with
  | cls m => exact h
  | self => exact h
  | name s =>
    obtain ⟨h1, h2⟩ := h
    refine ⟨h1, keyOf_iff.1 h2.symm, fun o' ho' hn => ?_⟩
    obtain ⟨c, hc, rfl⟩ := List.mem_map.1 h1
    obtain ⟨d, hd, rfl⟩ := List.mem_map.1 ho'
    rw [hf.keys d hd c hc ((keyOf_iff.2 hn).symm.trans h2.symm)]

theorem facts_of {ss : List ModStmt} (h : WellFormed ss) : Facts (concrete ss) := by
  refine ⟨?_, h.reprs, h.angle, fun c hc r hr s hs d hd hp => keyOf_iff.2 (h.written c hc r hr s hs d hd hp)⟩
  intro c hc d hd he
  have key : ∀ (l : List ClassSrc), (l.map fun c => c.model.regKey).Nodup → c ∈ l → d ∈ l → c = d := by
    intro l
    induction l with
    | nil => intro _ h; cases h
    | cons a l ih =>
      intro hn hc hd
      rw [List.map_cons, List.nodup_cons] at hn
      rcases List.mem_cons.1 hc with hc | hc <;> rcases List.mem_cons.1 hd with hd | hd
      · rw [hc, hd]
      · exact absurd (List.mem_map.2 ⟨d, hd, by rw [← hc, he]⟩) hn.1
      · exact absurd (List.mem_map.2 ⟨c, hc, by rw [← hd, he]⟩) hn.1
      · exact ih hn.2 hc hd
  exact key _ h.keys hc hd

/-- What has to hold between the classes. -/
structure Good (all : List ClassSrc) : Prop where
  facts : Facts all
  nodup : (all.map fun c => c.model.regKey).Nodup
  self : ∀ c ∈ all, ∀ n j spec, c.Declares n j spec → spec.other = .self → ¬ c.WrittenByName c.model
  cls : ∀ c ∈ all, ∀ n j spec o, c.Declares n j spec → spec.other = .cls o → ∃ d ∈ all, d.model = o ∧ ¬ c.WrittenByName o ∧ ¬ d.WrittenByName c.model
  name : all.Pairwise fun c d => ∀ n j spec, c.Declares n j spec → ∀ s, spec.other = .name s → NameMeans c.model s d.model → ¬ d.WrittenByName c.model

theorem good_of {ss : List ModStmt} (h : WellFormed ss) (hi : InTime ss) : Good (concrete ss) := by
  refine ⟨facts_of h, h.keys, hi.self, fun c hc n j spec o hD hs => ?_, hi.name⟩
  obtain ⟨d, h1, h2⟩ := h.exist c hc n j spec hD o hs
  exact ⟨d, h1, h2, (hi.cls c hc n j spec hD o hs).1, (hi.cls c hc n j spec hD o hs).2 d h1 h2⟩

theorem inv_empty : Inv all [] T [] {} := by
  refine { sub := ?_, reg := rfl, hid := ?_, pen := ?_, ord := .nil, shape := ?_, tord := .nil, cross := ?_, ent := ?_, every := ?_, acc := ?_, accs := ?_ } <;> simp

theorem inv_aggs (a : List AggObj) (h : Inv all done T [] L) : Inv all done T [] { L with aggs := a } :=
  ⟨h.sub, h.reg, h.hid, h.pen, h.ord, h.shape, h.tord, h.cross, h.ent, h.every, h.acc, h.accs⟩

/-- `T` matters only for what remains to be done. -/
theorem inv_any (T' : Model) (h : Inv all done T [] L) : Inv all done T' [] L :=
  ⟨h.sub, h.reg, h.hid, h.pen, h.ord, by simp, .nil, by simp, h.ent, h.every, h.acc, h.accs⟩

theorem concrete_cons (s : ModStmt) (ss : List ModStmt) : concrete (s :: ss) = concrete [s] ++ concrete ss := by
  unfold concrete
  rw [← List.filterMap_append]
  rfl

theorem concrete_cls {c : ClassSrc} (h : c.abstract = false) (ss : List ModStmt) : concrete (.cls c :: ss) = c :: concrete ss := by
  rw [concrete_cons]
  simp [concrete, h]

theorem concrete_agg (n : String) (ss : List ModStmt) : concrete (.aggField n :: ss) = concrete ss := by
  rw [concrete_cons]
  rfl

theorem concrete_append (a b : List ModStmt) : concrete (a ++ b) = concrete a ++ concrete b := by
  unfold concrete
  exact List.filterMap_append

/-- What a statement does to the aggregates. -/
def aggStep (L : Loading) : ModStmt → List AggObj
  | .aggField n => L.aggs ++ [{ managerName := n }]
  | .cls c => if c.abstract then (L.contributeAggs c.model c.aggregates).aggs else (L.contributeAggs c.model c.aggregates).setupAggs.aggs

theorem aggStep_cls (c : ClassSrc) : aggStep L (.cls c) = if c.abstract then (L.contributeAggs c.model c.aggregates).aggs else (L.contributeAggs c.model c.aggregates).setupAggs.aggs := rfl

theorem exec_inv (hg : Good all) {s : ModStmt} {rest : List ClassSrc} (hall : all = done ++ concrete [s] ++ rest) (h : Inv all done T [] L) :
    match L.exec s with
    | .ok L' => Inv all (done ++ concrete [s]) T [] L' ∧ L'.aggs = aggStep L s
    | .error _ => Stuck all (all.map (·.model)) := by
  cases s with
  | aggField n =>
    rw [show concrete [ModStmt.aggField n] = [] from rfl, List.append_nil]
    exact ⟨inv_aggs _ h, rfl⟩
  | cls c =>
    cases ha : c.abstract with
    | true =>
      rw [show concrete [ModStmt.cls c] = [] by simp [concrete, ha], List.append_nil]
      simp only [exec, classStmt, ha, if_true, aggStep]
      obtain ⟨a, e⟩ := contributeAggs_eq (m := c.model) c.aggregates L
      rw [e]
      exact ⟨inv_aggs _ h, trivial⟩
    | false =>
      have hcc : concrete [ModStmt.cls c] = [c] := by simp [concrete, ha]
      rw [hcc] at hall ⊢
      have hsub : ∀ d ∈ done ++ [c], d ∈ all := fun d hd => by rw [hall]; exact List.mem_append_left _ hd
      have hc := hsub c (by simp)
      have hfree : L.lookup c.model.regKey = none := by
        unfold lookup
        rw [List.find?_eq_none]
        intro m hm
        rw [h.reg] at hm
        obtain ⟨d, hd, rfl⟩ := List.mem_map.1 hm
        have := hg.nodup
        rw [hall, List.map_append, List.map_append, List.append_assoc, List.nodup_append] at this
        simpa using this.2.2 _ (List.mem_map.2 ⟨d, hd, rfl⟩) _ (by simp)
      have hlate : ∀ d ∈ done, ∀ n j spec s, d.Declares n j spec → spec.other = .name s → d.model.keyOf s = c.model.regKey → ¬ c.WrittenByName d.model := by
        intro d hd n j spec s hD hs hk
        have := hg.name
        rw [hall, List.append_assoc, List.pairwise_append] at this
        exact this.2.2 d hd c (by simp) n j spec hD s hs (keyOf_iff.1 hk)
      have := classStmt_inv hg.facts hsub ha hfree hlate (hg.self c hc) (hg.cls c hc) h
      simp only [exec]
      split at this
      · next hL =>
        try simp only [hL]
        exact ⟨inv_any T this.1, by simpa [aggStep, ha] using this.2⟩
      · next hL =>
        try simp only [hL]
        refine this.grow fun m hm => ?_
        obtain ⟨d, hd, rfl⟩ := List.mem_map.1 hm
        exact List.mem_map.2 ⟨d, hsub d hd, rfl⟩

theorem run_inv (hg : Good all) {rest : List ClassSrc} : ∀ (ss : List ModStmt) (done : List ClassSrc) (L : Loading), all = done ++ concrete ss ++ rest → Inv all done T [] L →
    match run ss L with
    | .ok L' => Inv all (done ++ concrete ss) T [] L'
    | .error _ => Stuck all (all.map (·.model))
  | [], done, L, _, h => by
    rw [show concrete [] = [] from rfl, List.append_nil]
    exact h
  | s :: ss, done, L, hall, h => by
    rw [concrete_cons] at hall ⊢
    have h1 := exec_inv (s := s) (rest := concrete ss ++ rest) hg (by rw [hall]; simp) h
    unfold run
    split at h1
    · next hL =>
      try simp only [hL]
      have h2 := run_inv (rest := rest) hg ss (done ++ concrete [s]) _ (by rw [hall]; simp) h1.1
      simpa [List.append_assoc] using h2
    · next hL =>
      try simp only [hL]
      exact h1

/-! ## What is there in the end -/

theorem depOf_eq (h : Inv all all T [] L) (hg : Facts all) (hn : ∀ c ∈ all, (c.callbacks.map (·.1)).Nodup) {c : ClassSrc} (hc : c ∈ all) {n : Col} {j : Nat} {spec : DepSpec} (hD : c.Declares n j spec) :
    DepRight L.registered c.model spec (L.depOf c.model n j) := by
  have huniq : ∀ spec', c.Declares n j spec' → spec' = spec := by
    rintro spec' ⟨f', h1, h2⟩
    obtain ⟨f, h3, h4⟩ := hD
    have key : ∀ l : List (Col × Func), (l.map (·.1)).Nodup → (n, f) ∈ l → (n, f') ∈ l → f = f' := by
      intro l
      induction l with
      | nil => intro _ h; cases h
      | cons a l ih =>
        intro hn h h'
        rw [List.map_cons, List.nodup_cons] at hn
        rcases List.mem_cons.1 h with rfl | h <;> rcases List.mem_cons.1 h' with h' | h'
        · cases h'; rfl
        · exact absurd (List.mem_map.2 ⟨_, h', rfl⟩) hn.1
        · rw [← h'] at hn
          exact absurd (List.mem_map.2 ⟨_, h, rfl⟩) hn.1
        · exact ih hn.2 h h'
    rw [key _ (hn c hc) h3 h1] at h4
    exact Option.some.inj (h2.symm.trans h4)
  unfold depOf
  cases he : L.deps.find? fun e => e.1 = (c.model, n, j) with
  | some e =>
    have h1 := List.mem_of_find?_eq_some he
    have h2 := List.find?_some he
    simp only [decide_eq_true_eq] at h2
    obtain ⟨c', hc', spec', e1, e2, o, r, e3, e4, e5⟩ := h.ent e h1
    rw [h2] at e1 e2
    simp only at e1 e2
    have : c' = c := hg.keys c' hc' c hc (by rw [← e2])
    rw [this] at e1 e3 e4 e5
    rw [huniq _ e1] at e3 e4 e5
    rw [h.reg] at e3 ⊢
    exact .inl ⟨o, r, means_of_meant hg e3, e4, by simp [e5]⟩
  | none =>
    rcases h.every c hc n j spec hD with ⟨d, e1⟩ | ⟨s, e1, e2⟩
    · exact absurd (List.find?_eq_none.1 he _ e1) (by simp)
    · refine .inr ⟨s, e1, ?_, rfl⟩
      have := (h.pen _ (e2.resolve_right (by simp))).1
      intro m hm hn
      unfold lookup at this
      have := List.find?_eq_none.1 this m hm
      simp only [decide_eq_true_eq] at this
      exact this (keyOf_iff.2 hn).symm

theorem eachRight_of_inv (h : Inv all all T [] L) (hg : Facts all) (hn : ∀ c ∈ all, (c.callbacks.map (·.1)).Nodup) {c : ClassSrc} (hc : c ∈ all) {n : Col} {f : Func} (hm : (n, f) ∈ c.callbacks) :
    EachRight L.registered c.model f.depends (L.depsOf c.model n f.depends.length) := by
  refine ⟨by simp [depsOf], fun j s d hs hd => ?_⟩
  have : d = L.depOf c.model n j := by
    unfold depsOf at hd
    rw [List.getElem?_map] at hd
    obtain ⟨i, h1, h2⟩ := Option.map_eq_some_iff.1 hd
    rw [List.getElem?_range (List.getElem?_eq_some_iff.1 hs).1] at h1
    rw [← h2, ← Option.some.inj h1]
  rw [this]
  exact depOf_eq h hg hn hc ⟨f, hm, hs⟩

theorem resolvable_of_inv (h : Inv all all T [] L) (hg : Facts all) (hn : ∀ c ∈ all, (c.callbacks.map (·.1)).Nodup) : Resolvable all := by
  intro c hc n j spec hD o hM
  rcases depOf_eq h hg hn hc hD with ⟨o', r, e1, e2, _⟩ | ⟨s, e1, e2, _⟩
  · refine ⟨r, ?_⟩
    rw [h.reg] at e1
    have : o' = o := by
      revert hM e1
      cases spec.other with
      | cls m => exact fun a b => b.trans a.symm
      | self => exact fun a b => b.trans a.symm
      | name s => exact fun a b => a.2.2 o' b.1 b.2.1
    rw [← this]
    exact e2
  · rw [e1] at hM
    rw [h.reg] at e2
    exact absurd hM.2.1 (e2 o hM.1)

theorem not_stuck (hg : Facts all) (h : Resolvable all) : ¬ Stuck all (all.map (·.model)) := by
  rintro ⟨c, hc, n, j, spec, o, h1, h2, h3⟩
  obtain ⟨r, hr⟩ := h c hc n j spec h1 o (means_of_meant hg h2)
  exact h3 r hr

/-- What is right is determined. -/
theorem depRight_unique {reg reg' : List Model} {this : Model} {spec : DepSpec} {d d' : Option Dep} (hm : ∀ m, m ∈ reg ↔ m ∈ reg') (h : DepRight reg this spec d) (h' : DepRight reg' this spec d') :
    d = d' := by
  rcases h with ⟨o, r, h1, h2, h3⟩ | ⟨s, h1, h2, h3⟩ <;> rcases h' with ⟨o', r', h1', h2', h3'⟩ | ⟨s', h1', h2', h3'⟩
  · have : o = o' := by
      revert h1 h1'
      cases spec.other with
      | cls m => exact fun a b => a.trans b.symm
      | self => exact fun a b => a.trans b.symm
      | name s => exact fun a b => b.2.2 o ((hm o).1 a.1) a.2.1
    rw [this] at h2
    rw [h3, h3', this, Except.ok.inj (h2.symm.trans h2')]
  · rw [h1'] at h1
    exact absurd h1.2.1 (h2' o ((hm o).1 h1.1))
  · rw [h1] at h1'
    exact absurd h1'.2.1 (h2 o' ((hm o').2 h1'.1))
  · rw [h3, h3']

/-! ## Aggregates -/

theorem contributeAggs_other {m : Model} {i : Nat} : ∀ (l : List (Col × Nat)) (L : Loading), (∀ n, (n, i) ∉ l) → (L.contributeAggs m l).aggs[i]? = L.aggs[i]?
  | [], _, _ => rfl
  | (n, k) :: l, L, h => by
    unfold contributeAggs
    rw [contributeAggs_other l _ fun n hn => h n (List.mem_cons_of_mem _ hn)]
    simp only
    rw [List.getElem?_modify_ne]
    intro e
    exact h n (by simp [e])

theorem contributeAggs_same {m : Model} {i : Nat} {n : Col} : ∀ (l : List (Col × Nat)) (L : Loading), (n, i) ∈ l → (∀ n', (n', i) ∈ l → n' = n) →
    (L.contributeAggs m l).aggs[i]? = L.aggs[i]?.map fun a => { a with model := some m, fieldname := n }
  | [], _, h, _ => by cases h
  | (n', k) :: l, L, h, hu => by
    unfold contributeAggs
    by_cases hk : k = i
    · have hn : n' = n := hu n' (by simp [hk])
      rw [hk, hn]
      by_cases hl : ∃ n'', (n'', i) ∈ l
      · obtain ⟨n'', hl⟩ := hl
        have := hu n'' (List.mem_cons_of_mem _ hl)
        rw [this] at hl
        rw [contributeAggs_same l _ hl fun n' h' => hu n' (List.mem_cons_of_mem _ h')]
        simp only
        rw [List.getElem?_modify_eq]
        cases L.aggs[i]? <;> rfl
      · rw [contributeAggs_other l _ fun n'' h' => hl ⟨n'', h'⟩]
        simp only
        rw [List.getElem?_modify_eq]
        rfl
    · have hl : (n, i) ∈ l := (List.mem_cons.1 h).resolve_left fun e => hk (by cases e; rfl)
      rw [contributeAggs_same l _ hl fun n' h' => hu n' (List.mem_cons_of_mem _ h')]
      simp only
      rw [List.getElem?_modify_ne _ _ hk]

/-- The object that a class without it leaves as it is, except that it looks for its manager. -/
theorem aggStep_other {s : ModStmt} {i : Nat} (hu : ∀ c, s = .cls c → ∀ n, (n, i) ∉ c.aggregates) {a : AggObj} (ha : L.aggs[i]? = some a) :
    (aggStep L s)[i]? = some (if concrete [s] = [] then a else L.setupAgg a) := by
  cases s with
  | aggField n =>
    simp only [aggStep, show concrete [ModStmt.aggField n] = [] from rfl, if_true]
    rw [List.getElem?_append_left (List.getElem?_eq_some_iff.1 ha).1]
    exact ha
  | cls c =>
    have := contributeAggs_other (m := c.model) c.aggregates L (hu c rfl)
    obtain ⟨b, hb⟩ := contributeAggs_eq (m := c.model) c.aggregates L
    rw [aggStep_cls]
    cases h : c.abstract with
    | true =>
      rw [show concrete [ModStmt.cls c] = [] by simp [concrete, h]]
      rw [if_pos rfl, if_pos rfl, this, ha]
    | false =>
      rw [show concrete [ModStmt.cls c] = [c] by simp [concrete, h]]
      rw [if_neg (by simp), if_neg (by simp)]
      simp only [setupAggs, List.getElem?_map]
      rw [this, ha, hb]
      rfl

theorem setupAgg_name (a : AggObj) : (L.setupAgg a).managerName = a.managerName ∧ (L.setupAgg a).model = a.model ∧ (L.setupAgg a).fieldname = a.fieldname := by
  unfold setupAgg
  split <;> exact ⟨rfl, rfl, rfl⟩

theorem contributeAggs_length {m : Model} : ∀ (l : List (Col × Nat)) (L : Loading), (L.contributeAggs m l).aggs.length = L.aggs.length
  | [], _ => rfl
  | (n, k) :: l, L => by
    unfold contributeAggs
    rw [contributeAggs_length l]
    simp

theorem aggStep_length {s : ModStmt} : (aggStep L s).length = L.aggs.length + (objects [s]).length := by
  cases s with
  | aggField n => simp [aggStep, objects]
  | cls c =>
    rw [aggStep_cls]
    split <;> simp [setupAggs, contributeAggs_length, objects]

theorem objects_cons (s : ModStmt) (ss : List ModStmt) : objects (s :: ss) = objects [s] ++ objects ss := by
  unfold objects
  rw [← List.filterMap_append]
  rfl

theorem run_append : ∀ (a b : List ModStmt) (L L' : Loading), run (a ++ b) L = .ok L' → ∃ M, run a L = .ok M ∧ run b M = .ok L'
  | [], _, L, L', h => ⟨L, rfl, h⟩
  | s :: a, b, L, L', h => by
    rw [List.cons_append] at h
    unfold run at h
    split at h
    · next M hM =>
      obtain ⟨M', h1, h2⟩ := run_append a b M L' h
      refine ⟨M', ?_, h2⟩
      unfold run
      rw [hM]
      exact h1
    · cases h

/-- Parts of a program that run. -/
theorem run_part (hg : Good all) {rest : List ClassSrc} {ss : List ModStmt} (hall : all = done ++ concrete ss ++ rest) (h : Inv all done T [] L) (hr : run ss L = .ok L') :
    Inv all (done ++ concrete ss) T [] L' := by
  have := run_inv hg ss done L hall h
  rw [hr] at this
  exact this

theorem exec_part (hg : Good all) {rest : List ClassSrc} {s : ModStmt} (hall : all = done ++ concrete [s] ++ rest) (h : Inv all done T [] L) (hr : L.exec s = .ok L') :
    Inv all (done ++ concrete [s]) T [] L' ∧ L'.aggs = aggStep L s := by
  have := exec_inv hg hall h
  rw [hr] at this
  exact this

theorem run_length (hg : Good all) {rest : List ClassSrc} : ∀ (ss : List ModStmt) (done : List ClassSrc) (L L' : Loading), all = done ++ concrete ss ++ rest → Inv all done T [] L →
    run ss L = .ok L' → L'.aggs.length = L.aggs.length + (objects ss).length
  | [], _, L, L', _, _, hr => by
    cases hr
    simp [objects]
  | s :: ss, done, L, L', hall, h, hr => by
    rw [concrete_cons] at hall
    unfold run at hr
    split at hr
    · next M hM =>
      have h1 := exec_part (s := s) (rest := concrete ss ++ rest) hg (by rw [hall]; simp) h hM
      rw [run_length (rest := rest) hg ss (done ++ concrete [s]) M L' (by rw [hall]; simp) h1.1 hr, h1.2, aggStep_length, objects_cons s ss, List.length_append]
      omega
    · cases hr

/-- What holds of an object that the classes do not use. -/
theorem run_agg (hg : Good all) (P : AggObj → Prop) (hP : ∀ done (L : Loading), Inv all done T [] L → ∀ a, P a → P (L.setupAgg a)) {i : Nat} {rest : List ClassSrc} :
    ∀ (ss : List ModStmt) (done : List ClassSrc) (L L' : Loading), all = done ++ concrete ss ++ rest → Inv all done T [] L → (∀ c, .cls c ∈ ss → ¬ c.Uses i) →
    run ss L = .ok L' → (∃ a, L.aggs[i]? = some a ∧ P a) → ∃ a, L'.aggs[i]? = some a ∧ P a
  | [], _, L, L', _, _, _, hr, h => by
    cases hr
    exact h
  | s :: ss, done, L, L', hall, h, hu, hr, ⟨a, h1, h2⟩ => by
    rw [concrete_cons] at hall
    unfold run at hr
    split at hr
    · next M hM =>
      have h3 := exec_part (s := s) (rest := concrete ss ++ rest) hg (by rw [hall]; simp) h hM
      refine run_agg (rest := rest) hg P hP ss (done ++ concrete [s]) M L' (by rw [hall]; simp) h3.1 (fun c hc => hu c (List.mem_cons_of_mem _ hc)) hr ?_
      rw [h3.2]
      refine ⟨_, aggStep_other (fun c hc n hn => hu c (by simp [hc]) ⟨n, hn⟩) h1, ?_⟩
      split
      · exact h2
      · exact hP _ _ h _ h2
    · cases hr

theorem lookup_key {k : List Char × List Char} {m : Model} (h : L.lookup k = some m) : m.regKey = k := by
  have := List.find?_some h
  simpa using this

/-- An aggregate finds the relation that its manager belongs to. -/
theorem aggregate_run (hg : Good all) {p0 p1 p2 p3 : List ModStmt} {N : String} {c d x : ClassSrc} {n : Col} {r : RelDecl}
    (hall : all = concrete (p0 ++ .aggField N :: p1 ++ .cls c :: p2 ++ .cls d :: p3)) (hc : c.abstract = false) (hd : d.abstract = false)
    (hn : (n, (objects p0).length) ∈ c.aggregates) (hn' : ∀ n', (n', (objects p0).length) ∈ c.aggregates → n' = n)
    (hu : ∀ e, .cls e ∈ p1 ++ p2 ++ .cls d :: p3 → ¬ e.Uses (objects p0).length)
    (hx : x ∈ concrete (p0 ++ .aggField N :: p1 ++ .cls c :: p2)) (hr : r ∈ x.rels) (hto : r.to.regKey x.model = c.model.regKey) (ha : r.accessor = some N)
    (huniq : ∀ x' ∈ all, ∀ r' ∈ x'.rels, r'.to.regKey x'.model = c.model.regKey → r'.accessor = some N → x' = x ∧ r' = r)
    (hrun : run (p0 ++ .aggField N :: p1 ++ .cls c :: p2 ++ .cls d :: p3) {} = .ok L) :
    L.aggs[(objects p0).length]? = some ⟨N, some c.model, n, some (x.model, r.attname)⟩ := by
  generalize hi : (objects p0).length = i at *
  have hcc : concrete [ModStmt.cls c] = [c] := by simp [concrete, hc]
  have hdd : concrete [ModStmt.cls d] = [d] := by simp [concrete, hd]
  have hall' : all = concrete p0 ++ (concrete p1 ++ ([c] ++ (concrete p2 ++ ([d] ++ concrete p3)))) := by
    rw [hall]
    simp only [concrete_append, concrete_agg, concrete_cls hc, concrete_cls hd, List.append_assoc, List.cons_append, List.nil_append]
  obtain ⟨M4, hrun, hr5⟩ := run_append _ _ _ _ hrun
  obtain ⟨M2, hrun, hr34⟩ := run_append _ _ _ _ hrun
  obtain ⟨M0, hr0, hr12⟩ := run_append _ _ _ _ hrun
  -- before the object is made
  have i0 := run_part (T := c.model) hg (rest := _) (by simpa using hall') inv_empty hr0
  have l0 := run_length (T := c.model) hg (rest := _) p0 [] {} M0 (by simpa using hall') inv_empty hr0
  simp only [List.nil_append, List.length_nil, Nat.zero_add, hi] at i0 l0
  -- the object
  unfold run at hr12
  simp only [exec] at hr12
  have i1 := inv_aggs (M0.aggs ++ [{ managerName := N }]) i0
  have a1 : (M0.aggs ++ [({ managerName := N } : AggObj)])[i]? = some { managerName := N } := by
    rw [← l0]
    simp
  have i2 := run_part hg (rest := [c] ++ (concrete p2 ++ ([d] ++ concrete p3))) (by rw [hall']; simp) i1 hr12
  obtain ⟨a2, b2, rfl⟩ := run_agg hg (fun a => a = { managerName := N }) (by
      rintro _ L _ a rfl
      rfl) p1 (concrete p0) _ M2 (by rw [hall', List.append_assoc]) i1 (fun e he => hu e (by simp [he])) hr12 ⟨_, a1, rfl⟩
  -- the class that has the field
  unfold run at hr34
  split at hr34
  · next M3 hM3 =>
    have i3 := exec_part (s := .cls c) hg (rest := concrete p2 ++ ([d] ++ concrete p3)) (by rw [hall', hcc]; simp) i2 hM3
    rw [hcc] at i3
    let P2 : AggObj → Prop := fun a => a.managerName = N ∧ a.model = some c.model ∧ a.fieldname = n ∧ (a.manager = none ∨ a.manager = some (x.model, r.attname))
    have hmgr : ∀ done (L : Loading), Inv all done c.model [] L → L.managerOf c.model N = none ∨ L.managerOf c.model N = some (x.model, r.attname) := by
      intro done L h
      unfold managerOf
      cases hf : L.accessors.find? fun y => y.1 = c.model ∧ y.2.1 = N with
      | none => exact .inl rfl
      | some y =>
        refine .inr ?_
        have e1 := List.mem_of_find?_eq_some hf
        have e2 := List.find?_some hf
        simp only [decide_eq_true_eq] at e2
        obtain ⟨x', hx', r', hr', e3, e4, e5⟩ := h.accs y e1
        have := huniq x' (h.sub x' hx') r' hr' (by rw [← lookup_key e3, e2.1]) (by rw [e4, e2.2])
        simp [e5, this.1, this.2]
    have hP2 : ∀ done (L : Loading), Inv all done c.model [] L → ∀ a, P2 a → P2 (L.setupAgg a) := by
      intro done L h a ⟨e1, e2, e3, e4⟩
      obtain ⟨g1, g2, g3⟩ := setupAgg_name (L := L) a
      refine ⟨g1.trans e1, g2.trans e2, g3.trans e3, ?_⟩
      unfold setupAgg
      rcases e4 with e4 | e4
      · rw [e4, e2]
        simp only
        rw [e1]
        exact hmgr done L h
      · rw [e4]
        exact .inr e4
    have a3 : ∃ a, M3.aggs[i]? = some a ∧ P2 a := by
      rw [i3.2]
      rw [aggStep_cls, if_neg (by simp [hc])]
      simp only [setupAggs, List.getElem?_map]
      rw [contributeAggs_same c.aggregates M2 hn hn', b2]
      refine ⟨_, rfl, ?_⟩
      obtain ⟨b, hb⟩ := contributeAggs_eq (m := c.model) c.aggregates M2
      rw [hb]
      exact hP2 _ _ (inv_aggs b i2) _ ⟨rfl, rfl, rfl, .inl rfl⟩
    have i4 := run_part hg (rest := [d] ++ concrete p3) (by rw [hall']; simp) i3.1 hr34
    obtain ⟨a4, b4, c1, c2, c3, c4⟩ := run_agg hg P2 hP2 p2 _ _ M4 (rest := [d] ++ concrete p3) (by rw [hall']; simp) i3.1 (fun e he => hu e (by simp [he])) hr34 a3
    -- the class after both
    unfold run at hr5
    split at hr5
    · next M5 hM5 =>
      have i5 := exec_part (s := .cls d) hg (rest := concrete p3) (by rw [hall', hdd]; simp) i4 hM5
      have hx' : x ∈ concrete p0 ++ concrete p1 ++ [c] ++ concrete p2 := by
        simp only [concrete_append, concrete_agg, concrete_cls hc] at hx
        simpa using hx
      have hreg : M4.lookup c.model.regKey = some c.model := lookup_mem (hg.facts.mono i4.sub) i4.reg (by simp)
      have hacc : (c.model, N, x.model, r.attname) ∈ M4.accessors := by
        rcases i4.acc x hx' r hr with g | g | ⟨t, g1, g2⟩
        · have := (i4.pen _ g).1
          rw [hto, hreg] at this
          cases this
        · cases g
        · rw [hto, hreg] at g1
          rw [Option.some.inj g1]
          exact g2 N ha
      have hset : M4.setupAgg a4 = ⟨N, some c.model, n, some (x.model, r.attname)⟩ := by
        obtain ⟨g1, g2, g3⟩ := setupAgg_name (L := M4) a4
        have g4 : (M4.setupAgg a4).manager = some (x.model, r.attname) := by
          unfold setupAgg
          rcases c4 with c4 | c4
          · rw [c4, c2]
            simp only
            rw [c1]
            refine (hmgr _ M4 i4).resolve_left fun hno => ?_
            unfold managerOf at hno
            rw [Option.map_eq_none_iff, List.find?_eq_none] at hno
            exact hno _ hacc (by simp)
          · rw [c4]
            exact c4
        rw [c1] at g1
        rw [c2] at g2
        rw [c3] at g3
        cases hs : M4.setupAgg a4
        rw [hs] at g1 g2 g3 g4
        simp only at g1 g2 g3 g4
        rw [g1, g2, g3, g4]
      have a5 : M5.aggs[i]? = some ⟨N, some c.model, n, some (x.model, r.attname)⟩ := by
        rw [i5.2, aggStep_other (fun e he n' hn' => hu e (by simp [← he]) ⟨n', hn'⟩) b4, if_neg (by rw [hdd]; simp), hset]
      obtain ⟨a, b, rfl⟩ := run_agg hg (fun a => a = ⟨N, some c.model, n, some (x.model, r.attname)⟩) (by
          rintro _ L _ a rfl
          rfl) p3 _ _ L (rest := []) (by rw [hall', hdd]; simp) i5.1 (fun e he => hu e (by simp [he])) hr5 ⟨_, a5, rfl⟩
      exact b
    · cases hr5
  · cases hr34

/-- Without a relation to look for, nothing is found. -/
theorem aggregate_none (hg : Good all) {N : String} {rest : List ClassSrc} : ∀ (ss : List ModStmt) (done : List ClassSrc) (L L' : Loading), all = done ++ concrete ss ++ rest → Inv all done T [] L →
    (∀ x ∈ (done ++ concrete ss).dropLast, ∀ r ∈ x.rels, r.accessor ≠ some N) → (∀ a ∈ L.aggs, a.managerName = N → a.manager = none) → run ss L = .ok L' →
    ∀ a ∈ L'.aggs, a.managerName = N → a.manager = none
  | [], _, L, L', _, _, _, h, hr => by
    cases hr
    exact h
  | s :: ss, done, L, L', hall, hi, hno, h, hr => by
    rw [concrete_cons] at hall hno
    unfold run at hr
    split at hr
    · next M hM =>
      have h1 := exec_part (s := s) (rest := concrete ss ++ rest) hg (by rw [hall]; simp) hi hM
      refine aggregate_none (rest := rest) hg ss (done ++ concrete [s]) M L' (by rw [hall]; simp) h1.1 (by simpa using hno) ?_ hr
      rw [h1.2]
      have hset : concrete [s] ≠ [] → ∀ a : AggObj, a.managerName = N → a.manager = none → (L.setupAgg a).manager = none := by
        intro hs a e1 e2
        unfold setupAgg
        rw [e2]
        cases a.model with
        | none => exact e2
        | some m =>
          simp only
          unfold managerOf
          rw [Option.map_eq_none_iff, List.find?_eq_none]
          intro y hy
          obtain ⟨x, hx, r, hr, _, g, _⟩ := hi.accs y hy
          have : x ∈ (done ++ (concrete [s] ++ concrete ss)).dropLast := by
            rw [List.dropLast_append_of_ne_nil (by simp [hs])]
            exact List.mem_append_left _ hx
          have := hno x this r hr
          rw [g] at this
          simp only [decide_eq_true_eq, not_and]
          intro _ e
          exact this (by rw [e, e1])
      have hcon : ∀ m l, ∀ a ∈ (L.contributeAggs m l).aggs, a.managerName = N → a.manager = none := by
        intro m l
        have key : ∀ (l : List (Col × Nat)) (L : Loading), (∀ a ∈ L.aggs, a.managerName = N → a.manager = none) → ∀ a ∈ (L.contributeAggs m l).aggs, a.managerName = N → a.manager = none := by
          intro l
          induction l with
          | nil => exact fun L h => h
          | cons p l ih =>
            intro L h
            unfold contributeAggs
            refine ih _ ?_
            intro a ha
            simp only at ha
            obtain ⟨k, hk⟩ := List.mem_iff_getElem?.1 ha
            rw [List.getElem?_modify] at hk
            obtain ⟨b, hb, hb'⟩ := Option.map_eq_some_iff.1 hk
            have := h b (List.mem_of_getElem? hb)
            rw [← hb']
            split
            · exact this
            · exact this
        exact key l L h
      cases s with
      | aggField n =>
        intro a ha
        rcases List.mem_append.1 ha with ha | ha
        · exact h a ha
        · rw [List.mem_singleton.1 ha]
          exact fun _ => rfl
      | cls c =>
        rw [aggStep_cls]
        split
        · exact hcon _ _
        · next hab =>
          intro a ha e
          simp only [setupAggs] at ha
          obtain ⟨b, hb, rfl⟩ := List.mem_map.1 ha
          obtain ⟨bs, hbs⟩ := contributeAggs_eq (m := c.model) c.aggregates L
          have e1 : (L.contributeAggs c.model c.aggregates).setupAgg b = L.setupAgg b := by
            rw [hbs]
            rfl
          rw [e1] at e ⊢
          rw [(setupAgg_name b).1] at e
          exact hset (by simp [concrete, hab]) b e (hcon _ _ b hb e)
    · cases hr

end Loading
end Denorm
