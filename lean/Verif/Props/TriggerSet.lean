import Verif.Lemmas.Merge
import Verif.Lemmas.Names
import Verif.Props.Conditions
/-!
# Merging of triggers (C08, C09, C34, C38)
-/
namespace Denorm

/-! ## C08: declarations do not interfere -/

theorem fires_mono {b : Backend} {tr tr' : DbTrigger} {ch : Change} (he : tr'.event = tr.event) (hf : ∀ c ∈ tr.fields, c ∈ tr'.fields)
    (hc : b ≠ .mysql → tr'.ctField = tr.ctField ∧ (tr.ctField ≠ none → tr'.ct = tr.ct)) (hm : b = .mysql → tr.fields = [] → tr'.fields = [])
    (h : tr.fires b ch = true) : tr'.fires b ch = true := by
  have hch : changedCols tr.fields ch.old ch.new = true → changedCols tr'.fields ch.old ch.new = true := by
    intro h
    obtain ⟨c, h1, h2⟩ := changedCols_iff.1 h
    exact changedCols_iff.2 ⟨c, hf c h1, h2⟩
  simp only [DbTrigger.fires, he] at h ⊢
  cases b
  · obtain ⟨h1, h2⟩ := hc (by simp)
    rw [h1]
    cases hcf : tr.ctField <;> cases hev : tr.event <;> simp_all
  · have hm := hm rfl
    cases hev : tr.event <;> simp only [hev, Bool.or_eq_true, List.isEmpty_iff] at h ⊢
    rcases h with h | h
    · exact .inl (hm h)
    · exact .inr (hch h)
  · obtain ⟨h1, h2⟩ := hc (by simp)
    rw [h1]
    cases hcf : tr.ctField <;> cases hev : tr.event <;> simp_all
    rcases h with h | h
    · exact .inl ⟨hch h.1, h.2⟩
    · exact .inr h

/-- C08. Where the first trigger of the same name watches at least as much, a declaration's own reaction to a change it watches is always run, whatever
other declarations there are and in whatever order. (Without the hypothesis: `C08_violated`.) -/
theorem C08_reaction_kept_partial {E : Engine} {D : List Denorm} (hE : Installed E D) {dn : Denorm} (hdn : dn ∈ D) {g : PyTrigger}
    (hg : g ∈ dn.triggers) (hc : Covered E.backend D g) {ch : Change} (ht : ch.table = g.table) (hev : ch.event = g.event)
    (hf : (g.compile "").fires E.backend ch = true) {a : Action} (ha : a ∈ g.actions) :
    ∃ n, .act ⟨[n], [ch.table]⟩ ch a ∈ E.fired .top ch := by
  have hgD : g ∈ generated D := List.mem_flatMap.2 ⟨dn, hdn, hg⟩
  obtain ⟨tr, htr, h1, h2⟩ := installed_covers (b := E.backend) hgD
  obtain ⟨g', h3, h4, h5, h6, h7, h8⟩ := installed_first htr
  rw [h1, firstNamed] at h3
  rw [Covered, h3] at hc
  obtain ⟨c1, c2, c3, c4, c5⟩ := hc
  refine ⟨tr.name, mem_fired.2 ⟨tr, hE ▸ htr, ?_, a, h2 a ha, rfl⟩⟩
  simp only [Engine.enters, Frame.top, List.not_mem_nil, decide_false, Bool.and_false, Bool.not_false, Bool.and_true, Bool.and_eq_true,
    decide_eq_true_eq]
  refine ⟨⟨by rw [h4, c1, ht], by rw [h5, c2, hev]⟩, fires_mono (tr := g.compile "") (by rw [h5]; exact c2) ?_ ?_ ?_ hf⟩
  · intro c hcc; rw [h6]; exact c3 c hcc
  · intro hb; rw [h7, h8]; exact c4 hb
  · intro hb hn; rw [h6]; exact c5 hb hn

/-- C08, adding declarations: whatever the triggers of `D` do, those of a larger list of declarations do too, if the larger list
agrees on what is watched. -/
theorem C08_adding_keeps_partial {E E' : Engine} {D D' : List Denorm} (hE : Installed E D) (hE' : Installed E' D')
    (hb : E'.backend = E.backend) (hsub : ∀ dn ∈ D, dn ∈ D') (hA : AgreeOnWatch E.backend D') (fr : Frame) (ch : Change) :
    ∀ it ∈ E.fired fr ch, it ∈ E'.fired fr ch := by
  have hgen : ∀ g ∈ generated D, g ∈ generated D' := by
    intro g hg
    obtain ⟨dn, h1, h2⟩ := List.mem_flatMap.1 hg
    exact List.mem_flatMap.2 ⟨dn, hsub dn h1, h2⟩
  intro it hit
  obtain ⟨tr, htr, hent, a, ha, rfl⟩ := mem_fired.1 hit
  rw [hE] at htr
  obtain ⟨g, hg, g1, g2, g3, g4, g5, g6⟩ := installed_head htr
  obtain ⟨ga, hga, ga1, ga2⟩ := installed_origin htr ha
  obtain ⟨tr', htr', h1, h2⟩ := installed_covers (b := E.backend) (hgen ga hga)
  obtain ⟨g', hg', k1, k2, k3, k4, k5, k6⟩ := installed_head htr'
  have hn : tr'.name = tr.name := by rw [h1, ga1]
  obtain ⟨e1, e2, e3, e4⟩ := hA g' hg' g (hgen g hg) (by rw [k1, hn, g1])
  refine mem_fired.2 ⟨tr', by rw [hE', hb]; exact htr', ?_, a, h2 a ga2, by rw [hn]⟩
  simp only [Engine.enters, Bool.and_eq_true, decide_eq_true_eq, hb, hn] at hent ⊢
  obtain ⟨⟨⟨q1, q2⟩, q3⟩, q4⟩ := hent
  refine ⟨⟨⟨by rw [k2, e1, ← g2, q1], by rw [k3, e2, ← g3, q2]⟩, ?_⟩, q4⟩
  refine fires_mono (by rw [k3, e2, ← g3]) ?_ ?_ ?_ q3
  · rw [k4, e3, ← g4]; exact fun _ h => h
  · intro hb'
    rw [k5, k6, g5, g6]
    obtain ⟨e5, e6⟩ := e4 hb'
    exact ⟨e5, fun h => e6 (e5 ▸ h)⟩
  · rw [k4, e3, ← g4]; exact fun _ h => h

/-- C08 is violated: model "a" reacts to a change of `updated_on` when it is alone, and no longer does once model "b", which skips
that column, is declared before it. -/
theorem C08_violated :
    (∃ db', (Skip.engine .sqlite [Skip.postText 2 "a" [] []]).exec 100 Skip.touch Skip.db = .ok db' ∧ db'.dirty = [⟨2, .int 1⟩]) ∧
    ∃ db', (Skip.engine .sqlite [Skip.postText 3 "b" [] ["updated_on"], Skip.postText 2 "a" [] []]).exec 100 Skip.touch Skip.db =
      .ok db' ∧ db'.dirty = [] := by
  set_option maxRecDepth 100000 in
  exact ⟨ok_of (by decide), ok_of (by decide)⟩

/-- The hypotheses of C08 are met by declarations that share a trigger. -/
example (b : Backend) : AgreeOnWatch b [Skip.postText 3 "b" [] [], Skip.postText 2 "a" [] []] := by
  set_option maxRecDepth 100000 in
  cases b <;> decide

/-- In the order [a, b], where b watches less, both are covered; in the order of `C08_violated`, a is not. -/
example (b : Backend) :
    (∀ dn ∈ [Skip.postText 2 "a" [] [], Skip.postText 3 "b" [] ["updated_on"]], ∀ g ∈ dn.triggers,
      Covered b [Skip.postText 2 "a" [] [], Skip.postText 3 "b" [] ["updated_on"]] g) ∧
    ¬ ∀ g ∈ (Skip.postText 2 "a" [] []).triggers, Covered b [Skip.postText 3 "b" [] ["updated_on"], Skip.postText 2 "a" [] []] g := by
  set_option maxRecDepth 100000 in
  cases b <;> decide

/-! ## C09: each reaction once -/

/-- The action of a pending item. -/
def Item.action : Item → Option Action
  | .act _ _ a => some a
  | .write .. => none

/-- How often the action is run for one row change. -/
def Engine.timesRun (E : Engine) (fr : Frame) (ch : Change) (a : Action) : Nat := ((E.fired fr ch).filterMap Item.action).count a

theorem fired_actions (E : Engine) (fr : Frame) (ch : Change) :
    (E.fired fr ch).filterMap Item.action = (E.triggers.filter (E.enters fr ch)).flatMap (·.actions) := by
  simp only [Engine.fired, List.filterMap_flatMap, List.filterMap_map]
  congr 1
  funext tr
  simp [Function.comp_def, Item.action]

theorem count_flatMap_le_one {a : Action} : ∀ {l : List DbTrigger}, (l.map (·.name)).Nodup → (∀ tr ∈ l, tr.actions.Nodup) →
    (∀ tr ∈ l, ∀ tr' ∈ l, a ∈ tr.actions → a ∈ tr'.actions → tr.name = tr'.name) → (l.flatMap (·.actions)).count a ≤ 1
  | [], _, _, _ => by simp
  | tr :: l, hn, hd, hu => by
    simp only [List.map_cons, List.nodup_cons] at hn
    simp only [List.flatMap_cons, List.count_append]
    by_cases ha : a ∈ tr.actions
    · have h0 : (l.flatMap (·.actions)).count a = 0 := by
        rw [List.count_eq_zero]
        intro h
        obtain ⟨tr', h1, h2⟩ := List.mem_flatMap.1 h
        exact hn.1 (hu tr (by simp) tr' (by simp [h1]) ha h2 ▸ List.mem_map_of_mem h1)
      have := List.nodup_iff_count.1 (hd tr (by simp)) a
      omega
    · rw [List.count_eq_zero.2 ha, Nat.zero_add]
      exact count_flatMap_le_one hn.2 (fun t h => hd t (by simp [h])) (fun t h t' h' => hu t (by simp [h]) t' (by simp [h']))

/-- C09. A declaration that is reached again adds nothing to the installed triggers. -/
theorem C09_repeated_declaration (b : Backend) (D1 D2 : List Denorm) {dn : Denorm} (h : dn ∈ D1) :
    installedTriggers b (D1 ++ dn :: D2) = installedTriggers b (D1 ++ D2) := installed_repeat b D1 D2 h

theorem installed_dedupFrom (b : Backend) : ∀ (D P S : List Denorm), (∀ d, d ∈ S ↔ d ∈ P) →
    installedTriggers b (P ++ D) = installedTriggers b (P ++ dedupFrom S D)
  | [], P, S, _ => by simp [dedupFrom]
  | d :: D, P, S, h => by
    simp only [dedupFrom]
    split
    · rename_i hd
      rw [installed_repeat b P D ((h d).1 hd)]
      exact installed_dedupFrom b D P S h
    · have := installed_dedupFrom b D (P ++ [d]) (d :: S) (by intro x; simp [h, or_comm])
      simpa using this

/-- C09. Any list of declarations gives the same triggers as the list without repetitions. -/
theorem C09_repetitions_removed (b : Backend) (D : List Denorm) : installedTriggers b D = installedTriggers b (dedup D) := by
  exact installed_dedupFrom b D [] [] (by simp)

theorem timesRun_le_one {E : Engine} {D : List Denorm} (hE : Installed E D) (hA : AgreeOnWatch E.backend D) (fr : Frame) (ch : Change)
    {a : Action} (hng : ∀ g ∈ generated D, g.table = ch.table → a ∈ g.actions → g.contentTypeField = none) :
    E.timesRun fr ch a ≤ 1 := by
  rw [Engine.timesRun, fired_actions]
  have hname : ∀ tr ∈ E.triggers.filter (E.enters fr ch), a ∈ tr.actions → tr.name = baseName ch.event ch.table := by
    intro tr htr ha
    obtain ⟨htr, hent⟩ := List.mem_filter.1 htr
    simp only [Engine.enters, Bool.and_eq_true, decide_eq_true_eq] at hent
    rw [hE] at htr
    obtain ⟨g', hg', k1, k2, k3, _⟩ := installed_head htr
    obtain ⟨g, hg, h1, h2⟩ := installed_origin htr ha
    obtain ⟨e1, e2, _⟩ := hA g hg g' hg' (h1.trans k1.symm)
    have htab : g.table = ch.table := by rw [e1, ← k2, hent.1.1.1]
    have hev : g.event = ch.event := by rw [e2, ← k3, hent.1.1.2]
    have hcf := hng g hg htab h2
    rw [← h1, ← htab, ← hev]
    cases hb : E.backend <;> simp [PyTrigger.name, hcf]
  refine count_flatMap_le_one ?_ ?_ ?_
  · have h1 : (E.triggers.map (·.name)).Nodup := hE ▸ installed_names_nodup _ _
    exact List.Nodup.sublist (List.Sublist.map _ List.filter_sublist) h1
  · intro tr htr
    have : tr ∈ installedTriggers E.backend D := hE ▸ (List.mem_filter.1 htr).1
    exact installed_actions_nodup this
  · intro tr htr tr' htr' ha ha'
    rw [hname tr htr ha, hname tr' htr' ha']

/-- C09. However the list of declarations looks, no reaction is run twice for one row change (on tables that are not the target of a
generic relation). Partial: reactions are told apart by their text, see `C09_violated_marker_twice`. -/
theorem C09_at_most_once_partial {E : Engine} {D : List Denorm} (hE : Installed E D) (hA : AgreeOnWatch E.backend D) (fr : Frame) (ch : Change)
    (hng : ∀ g ∈ generated D, g.table = ch.table → g.contentTypeField = none) (a : Action) : E.timesRun fr ch a ≤ 1 :=
  timesRun_le_one hE hA fr ch fun g hg ht _ => hng g hg ht

/-- A trigger that holds an aggregate's increment or decrement is not one of a generic relation, and has the right event. -/
theorem dep_no_agg (d : Dep) (u : UpdAction) : ∀ g ∈ d.callbackTriggers, Action.update u ∉ g.actions := by
  rcases d with ⟨this, other, rel, skip⟩
  rcases rel with f0 | f0 | (m | gr) | (m | gr) <;>
    simp [Dep.callbackTriggers, callbackM2MTriggers, mkTrigger, M2MLike.subject]

theorem depKey_no_agg (d : Dep) (f : Col) (u : UpdAction) (hu : u.expr ≠ .random) :
    ∀ g ∈ d.cacheKeyTriggers f, Action.update u ∉ g.actions := by
  rcases u with ⟨t, c, e, k, gs⟩
  rcases d with ⟨this, other, rel, skip⟩
  rcases rel with f0 | f0 | (m | gr) | (m | gr) <;>
    simp_all [Dep.cacheKeyTriggers, cacheKeyM2MTriggers, mkTrigger, M2MLike.subject, randomUpdate]

theorem agg_origin {D : List Denorm} {u : UpdAction} (hu : u.expr ≠ .random) : ∀ g ∈ generated D, Action.update u ∈ g.actions →
    ∃ a', .aggregate a' ∈ D ∧ g ∈ a'.triggers := by
  intro g hg hin
  obtain ⟨dn, h1, h2⟩ := List.mem_flatMap.1 hg
  cases dn with
  | callback bu m f skip deps =>
    simp only [Denorm.triggers, List.mem_append, List.mem_flatMap] at h2
    rcases h2 with h2 | ⟨d, _, h2⟩
    · exfalso; revert h2 hin
      cases bu
      · simp only [selfTriggers, mkTrigger]
        intro hin h2
        simp only [Bool.false_eq_true, if_false, List.mem_cons, List.not_mem_nil, or_false] at h2
        rcases h2 with rfl | rfl <;> simp at hin
      · simp
    · exact absurd hin (dep_no_agg d u g h2)
  | cacheKey m f deps =>
    simp only [Denorm.triggers, List.mem_flatMap] at h2
    obtain ⟨d, _, h2⟩ := h2
    exact absurd hin (depKey_no_agg d f u hu g h2)
  | aggregate a' => exact ⟨a', h1, h2⟩

theorem agg_trigger_plain (a : AggDenorm) : ∀ g ∈ a.triggers, g.contentTypeField = none ∧ g.table = a.related.table ∧
    g.fields = watchedFields a.related a.skip := by
  simp [AggDenorm.triggers, mkTrigger]

theorem incr_not_random (a : AggDenorm) : a.agg.incr ≠ .random ∧ a.agg.decr ≠ .random := by
  cases h : a.agg <;> simp [Agg.incr, Agg.decr]

theorem incr_ne_decr (a a' : AggDenorm) : a.increment ≠ a'.decrement := by
  cases h : a.agg <;> cases h' : a'.agg <;> simp [AggDenorm.increment, AggDenorm.decrement, Agg.incr, Agg.decr, h, h']

/-- What one row change of the related table does to an aggregate. -/
structure OncePerChange (E : Engine) (a : AggDenorm) : Prop where
  insert : ∀ r, E.timesRun .top ⟨a.related.table, .insert, r, r⟩ a.increment = 1 ∧ E.timesRun .top ⟨a.related.table, .insert, r, r⟩ a.decrement = 0
  delete : ∀ r, E.timesRun .top ⟨a.related.table, .delete, r, r⟩ a.decrement = 1 ∧ E.timesRun .top ⟨a.related.table, .delete, r, r⟩ a.increment = 0
  update : ∀ o n, (∃ c, Watchable a.related a.skip c ∧ o c ≠ n c) →
    E.timesRun .top ⟨a.related.table, .update, o, n⟩ a.increment = 1 ∧ E.timesRun .top ⟨a.related.table, .update, o, n⟩ a.decrement = 1

theorem timesRun_ge_one {E : Engine} {D : List Denorm} (hE : Installed E D) (hA : AgreeOnWatch E.backend D) {g : PyTrigger}
    (hg : g ∈ generated D) (hcf : g.contentTypeField = none) {ch : Change} (ht : ch.table = g.table) (hev : ch.event = g.event)
    (hup : ch.event = .update → ∃ c ∈ g.fields, ch.old c ≠ ch.new c) {a : Action} (ha : a ∈ g.actions) : 1 ≤ E.timesRun .top ch a := by
  obtain ⟨dn, hdn, hgd⟩ := List.mem_flatMap.1 hg
  have hc : Covered E.backend D g := by
    have hsome : ∃ g', (generated D).find? (fun g' => g'.name E.backend == g.name E.backend) = some g' := by
      rw [← Option.isSome_iff_exists, List.find?_isSome]
      exact ⟨g, hg, by simp⟩
    obtain ⟨g', hf⟩ := hsome
    have hg' := List.mem_of_find?_eq_some hf
    have hn : g'.name E.backend = g.name E.backend := by simpa using List.find?_some hf
    rw [Covered, hf]
    obtain ⟨e1, e2, e3, e4⟩ := hA g' hg' g hg hn
    exact ⟨e1, e2, by rw [e3]; exact fun _ h => h, fun hb => ⟨(e4 hb).1, fun h => (e4 hb).2 ((e4 hb).1 ▸ h)⟩, by rw [e3]; exact fun _ h => h⟩
  have hf : (g.compile "").fires E.backend ch = true := by
    simp only [DbTrigger.fires, PyTrigger.compile, hcf, ← hev]
    cases hce : ch.event with
    | insert => cases E.backend <;> rfl
    | delete => cases E.backend <;> rfl
    | update =>
      have := changedCols_iff.2 (hup hce)
      cases E.backend <;> simp [this]
  obtain ⟨n, hn⟩ := C08_reaction_kept_partial hE hdn hgd hc ht hev hf ha
  rw [Engine.timesRun]
  exact List.one_le_count_iff.2 (List.mem_filterMap.2 ⟨_, hn, rfl⟩)

/-- C09. A CountField or SumField is incremented and decremented exactly once per row change, however often its declaration is
reached. -/
theorem C09_aggregate_once {E : Engine} {D : List Denorm} (hE : Installed E D) (hA : AgreeOnWatch E.backend D) {a : AggDenorm}
    (ha : .aggregate a ∈ D) : OncePerChange E a := by
  have hgen : ∀ g ∈ a.triggers, g ∈ generated D := fun g hg => List.mem_flatMap.2 ⟨_, ha, hg⟩
  obtain ⟨r1, r2⟩ := incr_not_random a
  have le : ∀ ch, E.timesRun .top ch a.increment ≤ 1 ∧ E.timesRun .top ch a.decrement ≤ 1 := by
    intro ch
    constructor
    · refine timesRun_le_one hE hA .top ch fun g hg _ hin => ?_
      obtain ⟨a', _, h2⟩ := agg_origin (by exact r1) g hg hin
      exact (agg_trigger_plain a' g h2).1
    · refine timesRun_le_one hE hA .top ch fun g hg _ hin => ?_
      obtain ⟨a', _, h2⟩ := agg_origin (by exact r2) g hg hin
      exact (agg_trigger_plain a' g h2).1
  have zero : ∀ ch, (ch.event = .insert → E.timesRun .top ch a.decrement = 0) ∧ (ch.event = .delete → E.timesRun .top ch a.increment = 0) := by
    intro ch
    constructor
    all_goals
      intro hev
      rw [Engine.timesRun, fired_actions, List.count_eq_zero]
      intro h
      obtain ⟨tr, h1, h2⟩ := List.mem_flatMap.1 h
      obtain ⟨htr, hent⟩ := List.mem_filter.1 h1
      simp only [Engine.enters, Bool.and_eq_true, decide_eq_true_eq] at hent
      rw [hE] at htr
      obtain ⟨g', hg', k1, k2, k3, _⟩ := installed_head htr
      obtain ⟨g, hg, q1, q2⟩ := installed_origin htr h2
      obtain ⟨_, e2, _⟩ := hA g hg g' hg' (q1.trans k1.symm)
      have hge : g.event = ch.event := by rw [e2, ← k3, hent.1.1.2]
      rw [hev] at hge
    · obtain ⟨a', _, h3⟩ := agg_origin (by exact r2) g hg q2
      simp only [AggDenorm.triggers, List.mem_cons, List.not_mem_nil, or_false] at h3
      rcases h3 with rfl | rfl | rfl
      · simp [mkTrigger] at hge
      · simp only [mkTrigger, List.mem_singleton] at q2
        exact incr_ne_decr a' a q2.symm
      · simp [mkTrigger] at hge
    · obtain ⟨a', _, h3⟩ := agg_origin (by exact r1) g hg q2
      simp only [AggDenorm.triggers, List.mem_cons, List.not_mem_nil, or_false] at h3
      rcases h3 with rfl | rfl | rfl
      · simp [mkTrigger] at hge
      · simp [mkTrigger] at hge
      · simp only [mkTrigger, List.mem_singleton] at q2
        exact incr_ne_decr a a' q2
  constructor
  · intro r
    refine ⟨Nat.le_antisymm (le _).1 ?_, (zero _).1 rfl⟩
    refine timesRun_ge_one hE hA (hgen (mkTrigger (.model a.related) .insert [a.increment] a.model.ct a.skip) (by simp [AggDenorm.triggers]))
      rfl rfl rfl (by simp) (by simp [mkTrigger])
  · intro r
    refine ⟨Nat.le_antisymm (le _).2 ?_, (zero _).2 rfl⟩
    refine timesRun_ge_one hE hA (hgen (mkTrigger (.model a.related) .delete [a.decrement] a.model.ct a.skip) (by simp [AggDenorm.triggers]))
      rfl rfl rfl (by simp) (by simp [mkTrigger])
  · intro o n hc
    replace hc : ∃ c ∈ watchedFields a.related a.skip, o c ≠ n c := let ⟨c, h1, h2⟩ := hc; ⟨c, h1.mem, h2⟩
    have := hgen (mkTrigger (.model a.related) .update [a.increment, a.decrement] a.model.ct a.skip) (by simp [AggDenorm.triggers])
    refine ⟨Nat.le_antisymm (le _).1 ?_, Nat.le_antisymm (le _).2 ?_⟩
    · exact timesRun_ge_one (ch := ⟨a.related.table, .update, o, n⟩) hE hA this rfl rfl rfl (fun _ => hc) (by simp [mkTrigger])
    · exact timesRun_ge_one (ch := ⟨a.related.table, .update, o, n⟩) hE hA this rfl rfl rfl (fun _ => hc) (by simp [mkTrigger])

/-- The hypotheses of C09 are met with a declaration reached twice. -/
example (b : Backend) : AgreeOnWatch b (Demo.decls ++ [.aggregate Demo.postCount]) ∧
    .aggregate Demo.postCount ∈ Demo.decls ++ [.aggregate Demo.postCount] := by
  set_option maxRecDepth 100000 in
  cases b <;> decide

namespace Team

/-! A person belongs to groups through a membership model; a denormalized field of the person depends on both the membership (its ForeignKey) and the
group (the ManyToManyField). -/

def inGroups : M2M := ⟨"groups", "<class 'app.Group'>", "membership", "person_id", "group_id"⟩

def personM : Model :=
  { repr := "<class 'app.Person'>", appLabel := "app", name := "Person", table := "person", pkTable := "person", pk := "id", ct := 1,
    fields := [Demo.fld "id", Demo.fld "summary"], m2ms := [inGroups] }

def groupM : Model :=
  { repr := "<class 'app.Group'>", appLabel := "app", name := "Group", table := "group", pkTable := "group", pk := "id", ct := 2,
    fields := [Demo.fld "id", Demo.fld "name"] }

def membershipM : Model :=
  { repr := "<class 'app.Membership'>", appLabel := "app", name := "Membership", table := "membership", pkTable := "membership", pk := "id", ct := 3,
    fields := [Demo.fld "id", Demo.fkf "person" "<class 'app.Person'>", Demo.fkf "group" "<class 'app.Group'>", Demo.fld "since"] }

def membershipDecls : List Denorm := [.callback false personM "summary" []
  [⟨personM, groupM, .forwardM2M (.m2m inGroups), []⟩, ⟨personM, membershipM, .backward (Demo.fkf "person" "<class 'app.Person'>"), []⟩]]

def membershipDb : Db :=
  ⟨fun t => if t = "membership" then [fun c => if c = "id" then .int 1 else if c = "person_id" then .int 7 else if c = "group_id" then .int 8 else .null]
    else [], [], 0⟩

end Team

/-- C09 is violated: the dependencies on the group and on the membership both mark the person when a membership is deleted. It is one reaction, but
one dependency writes `OLD."person_id"` and the other `OLD.person_id` (dependencies.py:336 has no quotes), so that both statements stay: one row event makes two
markers. -/
theorem C09_violated_marker_twice (b : Backend) : ∃ (E : Engine) (D : List Denorm) (db : Db) (s : Stmt) (db' : Db),
    E.backend = b ∧ Installed E D ∧ db.dirty = [] ∧ (db.rows s.table).length = 1 ∧ E.exec 100 s db = .ok db' ∧ db'.dirty = [⟨1, .int 7⟩, ⟨1, .int 7⟩] := by
  refine ⟨Skip.engine b Team.membershipDecls, Team.membershipDecls, Team.membershipDb, .delete "membership" (fun _ => true), ?_⟩
  have h : ∃ db', (Skip.engine b Team.membershipDecls).exec 100 (.delete "membership" (fun _ => true)) Team.membershipDb = .ok db' ∧
      db'.dirty = [⟨1, .int 7⟩, ⟨1, .int 7⟩] := by
    set_option maxRecDepth 100000 in
    exact ok_of (by cases b <;> decide +kernel)
  obtain ⟨db', h1, h2⟩ := h
  exact ⟨db', rfl, by simp only [Installed, Skip.engine], rfl, rfl, h1, h2⟩

/-! ## C34: different table events get different triggers -/

/-- What a trigger is about: table, event and, for a generic relation, the content type. MySQL triggers are shared by all content
types. -/
def PyTrigger.about (b : Backend) (g : PyTrigger) : TableName × Event × Option Nat :=
  (g.table, g.event, if b = .mysql then none else g.contentTypeField.map fun _ => g.contentType)

/-- A generic relation's trigger on table `t` for content type `n`, and a plain trigger on a table called `t_n`. -/
def Clash (g g' : PyTrigger) : Prop :=
  g.contentTypeField.isSome ∧ g'.contentTypeField = none ∧ g'.table = g.table ++ "_" ++ toString g.contentType

instance (g g' : PyTrigger) : Decidable (Clash g g') := by unfold Clash; infer_instance

/-- C34. Apart from that clash, two triggers have the same name exactly if they are about the same thing. -/
theorem C34_names_partial (b : Backend) (g g' : PyTrigger) (h1 : b = .mysql ∨ ¬ Clash g g' ∧ ¬ Clash g' g) :
    g.name b = g'.name b ↔ g.about b = g'.about b := by
  have hmy : b = .mysql → (g.name b = g'.name b ↔ g.about b = g'.about b) := by
    rintro rfl
    simp only [PyTrigger.name, PyTrigger.about, if_true, Prod.mk.injEq, and_true]
    exact ⟨fun h => ⟨(baseName_inj h).2, (baseName_inj h).1⟩, fun h => by rw [h.1, h.2]⟩
  rcases h1 with h1 | ⟨h1, h2⟩
  · exact hmy h1
  by_cases hb : b = .mysql
  · exact hmy hb
  have name_eq : ∀ x : PyTrigger, x.name b = match x.contentTypeField with
      | none => baseName x.event x.table
      | some _ => baseName x.event x.table ++ "_" ++ toString x.contentType := by
    intro x
    cases b <;> first | exact absurd rfl hb | (cases hx : x.contentTypeField <;> simp [PyTrigger.name, hx])
  simp only [Clash] at h1 h2
  simp only [name_eq, PyTrigger.about, if_neg hb]
  cases hg : g.contentTypeField <;> cases hg' : g'.contentTypeField <;> simp only [hg, hg', Option.map_none, Option.map_some,
    Prod.mk.injEq, reduceCtorEq, and_false, and_true, iff_false, Option.some.injEq]
  · exact ⟨fun h => ⟨(baseName_inj h).2, (baseName_inj h).1⟩, fun h => by rw [h.1, h.2]⟩
  · intro h
    rw [baseName_suffix] at h
    exact h2 ⟨by simp [hg'], hg, (baseName_inj h).2⟩
  · intro h
    rw [baseName_suffix] at h
    exact h1 ⟨by simp [hg], hg', (baseName_inj h).2.symm⟩
  · constructor
    · intro h
      obtain ⟨h3, h4⟩ := suffix_inj h
      exact ⟨(baseName_inj h3).2, (baseName_inj h3).1, h4⟩
    · rintro ⟨h3, h4, h5⟩
      rw [h3, h4, h5]

/-- C34 is violated whenever such a clash occurs, whatever the table and content type. -/
theorem C34_violated_for_every_clash (b : Backend) (hb : b ≠ .mysql) (g g' : PyTrigger) (he : g.event = g'.event) (h : Clash g g') :
    g.name b = g'.name b ∧ g.table ≠ g'.table := by
  obtain ⟨h1, h2, h3⟩ := h
  obtain ⟨c, hc⟩ := Option.isSome_iff_exists.1 h1
  constructor
  · have e : g.name b = baseName g.event g.table ++ "_" ++ toString g.contentType := by
      cases b <;> first | exact absurd rfl hb | simp [PyTrigger.name, hc]
    have e' : g'.name b = baseName g'.event g'.table := by
      cases b <;> first | exact absurd rfl hb | simp [PyTrigger.name, h2]
    rw [e, e', h3, he, baseName_suffix]
  · intro h4
    have h5 := congrArg (fun s => s.toList.length) (h4.trans h3)
    simp only [String.toList_append, List.length_append, String.append_assoc] at h5
    have : "_".toList.length = 1 := rfl
    omega

/-- C34. If no two declared triggers clash, every reaction is attached to the table and event it was declared for. -/
theorem C34_right_table_partial {b : Backend} {D : List Denorm}
    (h : b = .mysql ∨ ∀ g ∈ generated D, ∀ g' ∈ generated D, ¬ Clash g g') {tr : DbTrigger} (htr : tr ∈ installedTriggers b D)
    {a : Action} (ha : a ∈ tr.actions) : ∃ dn ∈ D, ∃ g ∈ dn.triggers, a ∈ g.actions ∧ g.table = tr.table ∧ g.event = tr.event := by
  obtain ⟨g, hg, h1, h2⟩ := installed_origin htr ha
  obtain ⟨g', hg', k1, k2, k3, _⟩ := installed_head htr
  obtain ⟨dn, hdn, hgd⟩ := List.mem_flatMap.1 hg
  have := (C34_names_partial b g g' (h.imp id fun h => ⟨h g hg g' hg', h g' hg' g hg⟩)).1 (h1.trans k1.symm)
  simp only [PyTrigger.about, Prod.mk.injEq] at this
  exact ⟨dn, hdn, g, hgd, h2, this.1.trans k2.symm, this.2.1.trans k3.symm⟩

namespace Clashing

open Demo (fld fkf row)

/-- A model whose table happens to be called `tag_1`. -/
def tagOne : Model :=
  { repr := "<class 'app.TagOne'>", appLabel := "app", name := "TagOne", table := "tag_1", pkTable := "tag_1", pk := "id", ct := 9,
    fields := [fld "id", fld "name"] }

/-- Forum has tags (content type 1) and a ForeignKey dependency on `tag_1`. -/
def decls : List Denorm :=
  [.callback false Demo.forum "tags_string" [] [⟨Demo.forum, Demo.tag, .forwardM2M (.generic Demo.tagRel), []⟩],
   .callback false Demo.forum "one_name" [] [⟨Demo.forum, tagOne, .forward (fkf "one" "<class 'app.TagOne'>"), []⟩]]

end Clashing

/-- C34 is violated: with these declarations no trigger at all is installed on `tag_1`; its reactions are attached to `tag`. -/
theorem C34_violated :
    (∃ g ∈ generated Clashing.decls, g.table = "tag_1" ∧ g.actions ≠ []) ∧
    ∀ tr ∈ installedTriggers .postgresql Clashing.decls, tr.table ≠ "tag_1" := by
  set_option maxRecDepth 100000 in
  decide

/-- The demo declarations, which have generic relations on `tag`, do not clash. -/
example : ∀ g ∈ generated Demo.decls, ∀ g' ∈ generated Demo.decls, ¬ Clash g g' := by
  set_option maxRecDepth 100000 in
  decide

/-! ## C38: DENORM_BULK_UNSAFE_TRIGGERS -/

/-- The declaration with `DENORM_BULK_UNSAFE_TRIGGERS` switched on. -/
def Denorm.bulkUnsafe : Denorm → Denorm
  | .callback _ m f skip deps => .callback true m f skip deps
  | dn => dn

/-- `INSERT INTO dirty VALUES (ct, NEW.pk)`: the marker of a written instance itself. -/
def Model.selfMark (m : Model) : Action := .markValues m.ct .new m.pk true

/-- C38. A declaration's triggers on related models are the same with and without the setting; what is missing are its two triggers on the
declaring table. -/
theorem C38_triggers (m : Model) (f : Col) (skip : List String) (deps : List Dep) :
    (Denorm.callback false m f skip deps).triggers =
      [ mkTrigger (.model m) .update [m.selfMark] m.ct skip, mkTrigger (.model m) .insert [m.selfMark] m.ct skip ] ++
        (Denorm.callback true m f skip deps).triggers := rfl

/-- C38. For every row change: with the setting on, nothing new happens, and everything that happened before still does, except that
inserts and updates of a declaring table do not mark the written instance itself. -/
theorem C38_only_self_marks_missing {E E' : Engine} {D : List Denorm} (hE : Installed E D) (hE' : Installed E' (D.map Denorm.bulkUnsafe))
    (hb : E'.backend = E.backend) (hA : AgreeOnWatch E.backend D) (fr : Frame) (ch : Change) :
    (∀ it ∈ E'.fired fr ch, it ∈ E.fired fr ch) ∧
    ∀ it ∈ E.fired fr ch, it ∈ E'.fired fr ch ∨
      ∃ f skip deps, ∃ m : Model, .callback false m f skip deps ∈ D ∧ it.action = some m.selfMark ∧ ch.table = m.table ∧ ch.event ≠ .delete := by
  have hsub : ∀ g ∈ generated (D.map Denorm.bulkUnsafe), g ∈ generated D := by
    intro g hg
    obtain ⟨dn, h1, h2⟩ := List.mem_flatMap.1 hg
    obtain ⟨dn0, h3, rfl⟩ := List.mem_map.1 h1
    refine List.mem_flatMap.2 ⟨dn0, h3, ?_⟩
    cases dn0 <;> simp_all [Denorm.bulkUnsafe, Denorm.triggers]
  have hsup : ∀ g ∈ generated D, g ∈ generated (D.map Denorm.bulkUnsafe) ∨
      ∃ f skip deps, ∃ m : Model, .callback false m f skip deps ∈ D ∧ g.actions = [m.selfMark] ∧ g.table = m.table ∧ g.event ≠ .delete := by
    intro g hg
    obtain ⟨dn, h1, h2⟩ := List.mem_flatMap.1 hg
    by_cases h3 : g ∈ dn.bulkUnsafe.triggers
    · exact .inl (List.mem_flatMap.2 ⟨_, List.mem_map_of_mem h1, h3⟩)
    · right
      cases dn with
      | callback bu m f skip deps =>
        cases bu
        · refine ⟨f, skip, deps, m, h1, ?_⟩
          rw [C38_triggers] at h2
          rcases List.mem_append.1 h2 with h2 | h2
          · simp only [List.mem_cons, List.not_mem_nil, or_false] at h2
            rcases h2 with rfl | rfl <;> simp [mkTrigger]
          · exact absurd h2 h3
        · exact absurd h2 h3
      | cacheKey _ _ _ => exact absurd h2 h3
      | aggregate _ => exact absurd h2 h3
  constructor
  · intro it hit
    obtain ⟨tr, htr, hent, a, ha, rfl⟩ := mem_fired.1 hit
    rw [hE', hb] at htr
    obtain ⟨g, hg, g1, g2, g3, g4, g5, g6⟩ := installed_head htr
    obtain ⟨ga, hga, ga1, ga2⟩ := installed_origin htr ha
    obtain ⟨tr', htr', h1, h2⟩ := installed_covers (b := E.backend) (hsub ga hga)
    obtain ⟨g', hg', k1, k2, k3, k4, k5, k6⟩ := installed_head htr'
    have hn : tr'.name = tr.name := by rw [h1, ga1]
    obtain ⟨e1, e2, e3, e4⟩ := hA g' hg' g (hsub g hg) (by rw [k1, hn, g1])
    refine mem_fired.2 ⟨tr', by rw [hE]; exact htr', ?_, a, h2 a ga2, by rw [hn]⟩
    simp only [Engine.enters, Bool.and_eq_true, decide_eq_true_eq, hb, hn] at hent ⊢
    obtain ⟨⟨⟨q1, q2⟩, q3⟩, q4⟩ := hent
    refine ⟨⟨⟨by rw [k2, e1, ← g2, q1], by rw [k3, e2, ← g3, q2]⟩, ?_⟩, q4⟩
    refine fires_mono (by rw [k3, e2, ← g3]) ?_ ?_ ?_ q3
    · rw [k4, e3, ← g4]; exact fun _ h => h
    · intro hb'
      rw [k5, k6, g5, g6]
      obtain ⟨e5, e6⟩ := e4 hb'
      exact ⟨e5, fun h => e6 (e5 ▸ h)⟩
    · rw [k4, e3, ← g4]; exact fun _ h => h
  · intro it hit
    obtain ⟨tr, htr, hent, a, ha, rfl⟩ := mem_fired.1 hit
    rw [hE] at htr
    obtain ⟨g, hg, g1, g2, g3, g4, g5, g6⟩ := installed_head htr
    obtain ⟨ga, hga, ga1, ga2⟩ := installed_origin htr ha
    obtain ⟨a1, a2, _⟩ := hA ga hga g hg (ga1.trans g1.symm)
    simp only [Engine.enters, Bool.and_eq_true, decide_eq_true_eq] at hent
    obtain ⟨⟨⟨q1, q2⟩, q3⟩, q4⟩ := hent
    rcases hsup ga hga with hga' | ⟨f, skip, deps, m, m1, m2, m3, m4⟩
    · left
      obtain ⟨tr', htr', h1, h2⟩ := installed_covers (b := E.backend) hga'
      obtain ⟨g', hg', k1, k2, k3, k4, k5, k6⟩ := installed_head htr'
      have hn : tr'.name = tr.name := by rw [h1, ga1]
      obtain ⟨e1, e2, e3, e4⟩ := hA g' (hsub g' hg') g hg (by rw [k1, hn, g1])
      refine mem_fired.2 ⟨tr', by rw [hE', hb]; exact htr', ?_, a, h2 a ga2, by rw [hn]⟩
      simp only [Engine.enters, Bool.and_eq_true, decide_eq_true_eq, hb, hn]
      refine ⟨⟨⟨by rw [k2, e1, ← g2, q1], by rw [k3, e2, ← g3, q2]⟩, ?_⟩, q4⟩
      refine fires_mono (by rw [k3, e2, ← g3]) ?_ ?_ ?_ q3
      · rw [k4, e3, ← g4]; exact fun _ h => h
      · intro hb'
        rw [k5, k6, g5, g6]
        obtain ⟨e5, e6⟩ := e4 hb'
        exact ⟨e5, fun h => e6 (e5 ▸ h)⟩
      · rw [k4, e3, ← g4]; exact fun _ h => h
    · right
      refine ⟨f, skip, deps, m, m1, ?_, ?_, ?_⟩
      · rw [m2, List.mem_singleton] at ga2
        simp [Item.action, ga2]
      · rw [← m3, a1, ← g2, q1]
      · rw [← q2, g3, ← a2]; exact m4

/-- With the setting, overwriting a forum's title still marks its posts but no longer the forum itself. -/
example : ∃ db', (Skip.engine .sqlite (Demo.decls.map Denorm.bulkUnsafe)).exec 100
    (.update "forum" (fun r => r "id" == .int 1) (fun _ r => r.set "title" (.text "Z"))) Demo.db = .ok db' ∧
    ⟨1, .int 1⟩ ∉ db'.dirty ∧ ⟨2, .int 1⟩ ∈ db'.dirty := by
  set_option maxRecDepth 100000 in
  exact ok_of (by decide)

end Denorm
