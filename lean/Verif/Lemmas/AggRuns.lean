import Verif.Spec.Aggregate
import Verif.Props.TriggerSet
/-!
# What an aggregate's triggers do for one row change
-/
namespace Denorm

/-! ## Filters -/

theorem and3_some (x y : Bool) : and3 (some x) (some y) = some (x && y) := by
  cases x <;> cases y <;> rfl

theorem lookup_true {l : Lookup} {v w : Val} (hw : w ≠ .null) (hm : .null ∉ l.more) : l.eval v w = some true ↔
    v ≠ .null ∧ match (generalizing := false) l with
      | .exact => v = w
      | .gt => Val.lt w v = true
      | .gte => Val.lt w v = true ∨ v = w
      | .lt => Val.lt v w = true
      | .lte => Val.lt v w = true ∨ v = w
      | .oneOf more => v ∈ w :: more
      | .between hi => (Val.lt w v = true ∨ v = w) ∧ (Val.lt v hi = true ∨ v = hi) := by
  cases l with
  | oneOf vs =>
    simp only [Lookup.more] at hm
    by_cases h : v ∈ w :: vs
    · cases v <;> cases w <;> simp_all [Lookup.eval]
    · cases v <;> cases w <;> simp_all [Lookup.eval]
  | between hi =>
    simp only [Lookup.more, List.mem_singleton] at hm
    cases v <;> cases w <;> cases hi <;> simp_all [Lookup.eval, and3_some]
  | _ => cases v <;> cases w <;> simp_all [Lookup.eval]

theorem lookup_known {l : Lookup} {v w : Val} (hv : v ≠ .null) (hw : w ≠ .null) (hm : .null ∉ l.more) : ∃ b, l.eval v w = some b := by
  cases l with
  | oneOf vs =>
    simp only [Lookup.more] at hm
    by_cases h : v ∈ w :: vs
    · exact ⟨true, by cases v <;> cases w <;> simp_all [Lookup.eval]⟩
    · exact ⟨false, by cases v <;> cases w <;> simp_all [Lookup.eval]⟩
  | between hi =>
    simp only [Lookup.more, List.mem_singleton] at hm
    cases v <;> cases w <;> cases hi <;> simp_all [Lookup.eval, and3_some]
  | _ => cases v <;> cases w <;> simp_all [Lookup.eval]

theorem Cond.no_null {c : Cond} (h : .null ∈ c.values → c.lookup = .exact) (hn : ¬ (c.lookup = .exact ∧ c.value = .null)) :
    c.value ≠ .null ∧ .null ∉ c.lookup.more := by
  refine ⟨fun e => hn ⟨h (e ▸ List.mem_cons_self), e⟩, fun e => ?_⟩
  rw [h (List.mem_cons_of_mem _ e)] at e
  exact absurd e (by simp [Lookup.more])

theorem Cond.toFilter_true {c : Cond} (h : .null ∈ c.values → c.lookup = .exact) (o : Row) :
    c.toFilter.eval o = some true ↔ c.Matches o := by
  unfold Cond.toFilter Cond.Matches
  split
  · simp [Filter.eval]
  · rename_i hn
    have hv := Cond.no_null h hn
    simp only [Filter.eval]
    exact lookup_true hv.1 hv.2

theorem and3_eq_true {x y : Option Bool} : and3 x y = some true ↔ x = some true ∧ y = some true := by
  rcases x with _ | (_ | _) <;> rcases y with _ | (_ | _) <;> simp [and3]

theorem andAll_cons (f : Filter) (fs : List Filter) (o : Row) : (andAll (f :: fs)).eval o = and3 (f.eval o) ((andAll fs).eval o) := by
  cases fs with
  | nil =>
    simp only [andAll, Filter.eval]
    rcases f.eval o with _ | (_ | _) <;> rfl
  | cons g fs => rfl

theorem and3_assoc (x y z : Option Bool) : and3 (and3 x y) z = and3 x (and3 y z) := by
  rcases x with _ | (_ | _) <;> rcases y with _ | (_ | _) <;> rcases z with _ | (_ | _) <;> rfl

theorem andAll_append (fs gs : List Filter) (o : Row) : (andAll (fs ++ gs)).eval o = and3 ((andAll fs).eval o) ((andAll gs).eval o) := by
  induction fs with
  | nil =>
    simp only [List.nil_append, andAll, Filter.eval]
    rcases (andAll gs).eval o with _ | (_ | _) <;> rfl
  | cons f fs ih => rw [List.cons_append, andAll_cons, andAll_cons, ih, and3_assoc]

theorem Cond.toNegFilters_eval {c : Cond} (h : .null ∈ c.values → c.lookup = .exact) (o : Row) :
    (andAll c.toNegFilters).eval o = some (decide (c.Matches o)) := by
  by_cases hn : c.lookup = .exact ∧ c.value = .null
  · simp [Cond.toNegFilters, Cond.Matches, hn, Filter.eval, andAll]
  · obtain ⟨hv, hmore⟩ := Cond.no_null h hn
    have hm := Cond.toFilter_true h o
    simp only [Cond.toFilter, if_neg hn, Filter.eval] at hm
    simp only [Cond.toNegFilters, if_neg hn, Filter.eval, andAll]
    by_cases ho : o c.col = .null
    · have : ¬ c.Matches o := by
        rw [← hm]
        rw [lookup_true hv hmore]
        exact fun h => h.1 ho
      simp only [this, decide_false, ho, decide_true, not3, Bool.not_true]
      cases hl : c.lookup <;> cases hv' : c.value <;> simp [Lookup.eval, and3]
    · obtain ⟨b, hb⟩ := lookup_known (l := c.lookup) ho hv hmore
      simp only [ho, decide_false, not3, Bool.not_false, hb, and3]
      rw [hb] at hm
      cases b <;> simp_all [and3]

theorem andAll_true {o : Row} : ∀ {fs : List Filter}, (andAll fs).eval o = some true ↔ ∀ f ∈ fs, f.eval o = some true
  | [] => by simp [andAll, Filter.eval]
  | f :: fs => by simp [andAll_cons, and3_eq_true, andAll_true (fs := fs)]

theorem andAll_neg {o : Row} : ∀ {es : List Cond}, (∀ c ∈ es, .null ∈ c.values → c.lookup = .exact) →
    (andAll (es.flatMap Cond.toNegFilters)).eval o = some (decide (∀ c ∈ es, c.Matches o))
  | [], _ => by simp [andAll, Filter.eval]
  | c :: es, h => by
    simp only [List.flatMap_cons, andAll_append, Cond.toNegFilters_eval (h c (List.mem_cons_self ..)),
      andAll_neg (fun c hc => h c (List.mem_cons_of_mem _ hc)), List.forall_mem_cons, and3_some, Bool.decide_and]

theorem not3_true {x : Option Bool} : not3 x = some true ↔ x = some false := by
  rcases x with _ | (_ | _) <;> simp [not3]

theorem neg_true {o : Row} {es : List Cond} (h : ∀ c ∈ es, .null ∈ c.values → c.lookup = .exact) :
    (Filter.not (andAll (es.flatMap Cond.toNegFilters))).eval o = some true ↔ ∃ c ∈ es, ¬ c.Matches o := by
  simp only [Filter.eval, not3_true, andAll_neg h, Option.some.injEq, decide_eq_false_iff_not, Classical.not_forall, exists_prop]

theorem whereOf_iff {fs es : List Cond} (h : ∀ c ∈ fs ++ es, .null ∈ c.values → c.lookup = .exact) (o : Row) :
    (match whereOf fs es with
      | none => True
      | some f => f.holds o = true) ↔ (∀ c ∈ fs, c.Matches o) ∧ (es = [] ∨ ∃ c ∈ es, ¬ c.Matches o) := by
  have hf : ∀ c ∈ fs, .null ∈ c.values → c.lookup = .exact := fun c hc => h c (List.mem_append.2 (.inl hc))
  have he : ∀ c ∈ es, .null ∈ c.values → c.lookup = .exact := fun c hc => h c (List.mem_append.2 (.inr hc))
  have key : (match whereOf fs es with
      | none => True
      | some f => f.holds o = true) ↔
      ∀ f ∈ fs.map Cond.toFilter ++ (if es = [] then [] else [Filter.not (andAll (es.flatMap Cond.toNegFilters))]), f.eval o = some true := by
    rw [← andAll_true]
    unfold whereOf
    split
    · rename_i hw
      split at hw
      · rename_i hn; simp [hn, andAll, Filter.eval]
      · simp at hw
    · rename_i hw
      split at hw
      · simp at hw
      · obtain rfl := Option.some.inj hw
        simp [Filter.holds]
  rw [key]
  constructor
  · intro hh
    refine ⟨fun c hc => (Cond.toFilter_true (hf c hc) o).1 (hh _ (List.mem_append.2 (.inl (List.mem_map.2 ⟨c, hc, rfl⟩)))), ?_⟩
    by_cases hn : es = []
    · exact .inl hn
    · exact .inr ((neg_true he).1 (hh _ (by simp [hn])))
  · rintro ⟨h1, h2⟩ f hm
    rcases List.mem_append.1 hm with hm | hm
    · obtain ⟨c, hc, rfl⟩ := List.mem_map.1 hm
      exact (Cond.toFilter_true (hf c hc) o).2 (h1 c hc)
    · by_cases hn : es = []
      · simp [hn] at hm
      · simp only [if_neg hn, List.mem_singleton] at hm
        subst hm
        exact (neg_true he).2 (h2.resolve_left hn)

/-- What one related row contributes to the instance with primary key `k`. -/
def AggDenorm.amount (a : AggDenorm) (o : Row) : Int :=
  match a.agg with
  | .count => 1
  | .sum f => (o f).toInt

def AggDenorm.share (a : AggDenorm) (k : Val) (o : Row) : Int := if a.Selects k o then a.amount o else 0

theorem total_eq (a : AggDenorm) (db : Db) (k : Val) : a.total db k = ((db.rows a.related.table).map (a.share k)).sum := by
  unfold AggDenorm.total AggDenorm.share AggDenorm.amount
  generalize db.rows a.related.table = rows
  cases a.agg with
  | count =>
    induction rows with
    | nil => rfl
    | cons o rows ih =>
      simp only [List.filter_cons, List.map_cons, List.sum_cons, ← ih]
      by_cases h : a.Selects k o <;> simp [h] <;> omega
  | sum f =>
    induction rows with
    | nil => rfl
    | cons o rows ih =>
      simp only [List.filter_cons, List.map_cons, List.sum_cons, ← ih]
      by_cases h : a.Selects k o <;> simp [h]

theorem guards_all (a : AggDenorm) (s : Side) (ch : Change) (db : Db) : (a.guards s).all (fun g => g.holds ch db) = true ↔
    (match whereOf a.filter a.exclude with
      | none => True
      | some f => f.holds (ch.side s) = true) := by
  unfold AggDenorm.guards
  cases whereOf a.filter a.exclude <;> simp [Guard.holds]

/-- The WHERE of an increment or decrement picks the instances the row is counted for. -/
theorem where_iff {a : AggDenorm} (hc : ∀ c ∈ a.filter ++ a.exclude, .null ∈ c.values → c.lookup = .exact)
    (hfk : a.fk.column = a.fk.attname) (s : Side) (t : TableName) (col : Col) (e : SetExpr) (ch : Change) (db : Db) (r : Row) :
    (UpdAction.mk t col e (.eq a.model.pk s a.fk.attname) (a.guards s)).where_ ch db r = true ↔
      a.Selects (r a.model.pk) (ch.side s) := by
  simp only [UpdAction.where_, Key.matches, Bool.and_eq_true, guards_all, Val.sqlEq_iff, whereOf_iff hc, AggDenorm.Selects, hfk]
  constructor
  · rintro ⟨⟨h1, h2⟩, h3⟩; exact ⟨h1.symm, h2, h3⟩
  · rintro ⟨h1, h2, h3⟩; exact ⟨⟨h1.symm, h2⟩, h3⟩

/-! ## How often the two actions run -/

theorem AggDenorm.incr_ne_decr (a : AggDenorm) : a.increment ≠ a.decrement := by
  cases h : a.agg <;> simp [AggDenorm.increment, AggDenorm.decrement, Agg.incr, Agg.decr, h]

theorem agg_same_col {a a' : AggDenorm} (h : a'.increment = a.increment ∨ a'.increment = a.decrement ∨ a'.decrement = a.increment ∨
    a'.decrement = a.decrement) : a'.model.table = a.model.table ∧ a'.fieldname = a.fieldname := by
  rcases h with h | h | h | h <;> simp only [AggDenorm.increment, AggDenorm.decrement, Action.update.injEq, UpdAction.mk.injEq] at h <;>
    exact ⟨h.1, h.2.1⟩

/-- The trigger of the aggregate for an event. -/
def AggDenorm.trigger (a : AggDenorm) (ev : Event) : PyTrigger :=
  mkTrigger (.model a.related) ev (match ev with
    | .update => [a.increment, a.decrement]
    | .insert => [a.increment]
    | .delete => [a.decrement]) a.model.ct a.skip

theorem AggDenorm.mem_triggers {a : AggDenorm} {g : PyTrigger} : g ∈ a.triggers ↔ ∃ ev, g = a.trigger ev := by
  constructor
  · intro h
    simp only [AggDenorm.triggers, List.mem_cons, List.not_mem_nil, or_false] at h
    rcases h with rfl | rfl | rfl
    · exact ⟨.update, rfl⟩
    · exact ⟨.insert, rfl⟩
    · exact ⟨.delete, rfl⟩
  · rintro ⟨ev, rfl⟩
    cases ev <;> simp [AggDenorm.triggers, AggDenorm.trigger]

/-- Where the aggregate's actions come from. -/
theorem agg_from {b : Backend} {D : List Denorm} {a : AggDenorm} (hD : AggDeclared b D a) {x : Action}
    (hx : x = a.increment ∨ x = a.decrement) : ∀ g ∈ generated D, x ∈ g.actions → g ∈ a.triggers := by
  intro g hg hin
  have hr : ∃ u, x = .update u ∧ u.expr ≠ .random := by
    obtain ⟨r1, r2⟩ := incr_not_random a
    rcases hx with rfl | rfl
    · exact ⟨_, rfl, r1⟩
    · exact ⟨_, rfl, r2⟩
  obtain ⟨u, rfl, hu⟩ := hr
  obtain ⟨a', h1, h2⟩ := agg_origin hu g hg hin
  obtain ⟨ev, rfl⟩ := AggDenorm.mem_triggers.1 h2
  have : a'.model.table = a.model.table ∧ a'.fieldname = a.fieldname := by
    apply agg_same_col
    have hin' : Action.update u = a'.increment ∨ Action.update u = a'.decrement := by
      cases ev <;> simp [AggDenorm.trigger, mkTrigger] at hin
      · exact .inl hin
      · exact hin
      · exact .inr hin
    rcases hin' with h | h <;> rcases hx with k | k <;> rw [k] at h <;> simp [h]
  have := hD.only _ h1 (by simp [Denorm.writes, this.1, this.2])
  simp only [Denorm.aggregate.injEq] at this
  subst this
  exact h2

theorem installed_unique {b : Backend} {D : List Denorm} {tr tr' : DbTrigger} (h : tr ∈ installedTriggers b D)
    (h' : tr' ∈ installedTriggers b D) (hn : tr.name = tr'.name) : tr = tr' := by
  have := installed_names_nodup b D
  have aux : ∀ {l : List DbTrigger}, (l.map (·.name)).Nodup → tr ∈ l → tr' ∈ l → tr = tr' := by
    intro l
    induction l with
    | nil => intro _ h; simp at h
    | cons x l ih =>
      intro hnd h1 h2
      simp only [List.map_cons, List.nodup_cons, List.mem_map, not_exists, not_and] at hnd
      rcases List.mem_cons.1 h1 with e1 | e1 <;> rcases List.mem_cons.1 h2 with e2 | e2
      · exact e1.trans e2.symm
      · exact absurd (e1 ▸ hn.symm) (hnd.1 _ e2)
      · exact absurd (e2 ▸ hn) (hnd.1 _ e1)
      · exact ih hnd.2 e1 e2
  exact aux this h h'

/-- The installed trigger that holds the aggregate's actions for an event. -/
theorem agg_installed {E : Engine} {D : List Denorm} {a : AggDenorm} (hE : Installed E D) (hD : AggDeclared E.backend D a) (ev : Event) :
    ∃ tr ∈ E.triggers, tr.table = a.related.table ∧ tr.event = ev ∧ (∀ c ∈ watchedFields a.related a.skip, c ∈ tr.fields) ∧
      (E.backend ≠ .mysql → tr.ctField = none) ∧ (∀ x ∈ (a.trigger ev).actions, x ∈ tr.actions) ∧
      tr.name = (a.trigger ev).name E.backend := by
  have hg : a.trigger ev ∈ a.triggers := AggDenorm.mem_triggers.2 ⟨ev, rfl⟩
  have hgD : a.trigger ev ∈ generated D := List.mem_flatMap.2 ⟨_, hD.declared, hg⟩
  obtain ⟨tr, htr, h1, h2⟩ := installed_covers (b := E.backend) hgD
  obtain ⟨g', h3, h4, h5, h6, h7, h8⟩ := installed_first htr
  have hC := hD.covered _ hg
  rw [h1, firstNamed] at h3
  simp only [Covered, h3] at hC
  obtain ⟨e1, e2, e3, e4, _⟩ := hC
  exact ⟨tr, hE ▸ htr, by rw [h4, e1]; rfl, by rw [h5, e2]; rfl, fun c hc => by rw [h6]; exact e3 c hc,
    fun hb => by rw [h7, (e4 hb).1]; rfl, h2, h1⟩

/-- An installed trigger that holds one of the aggregate's actions is the one of that event. -/
theorem agg_holder {E : Engine} {D : List Denorm} {a : AggDenorm} (hE : Installed E D) (hD : AggDeclared E.backend D a) {tr : DbTrigger}
    (htr : tr ∈ E.triggers) {x : Action} (hx : x = a.increment ∨ x = a.decrement) (hin : x ∈ tr.actions) :
    ∃ ev, x ∈ (a.trigger ev).actions ∧ tr.name = (a.trigger ev).name E.backend := by
  rw [hE] at htr
  obtain ⟨g, hg, h1, h2⟩ := installed_origin htr hin
  obtain ⟨ev, rfl⟩ := AggDenorm.mem_triggers.1 (agg_from hD hx g hg h2)
  exact ⟨ev, h2, h1.symm⟩

theorem enters_iff {E : Engine} {fr : Frame} {ch : Change} (hb : NotBlocked E fr ch) {tr : DbTrigger} (htr : tr ∈ E.triggers) :
    E.enters fr ch tr = true ↔ tr.table = ch.table ∧ tr.event = ch.event ∧ tr.fires E.backend ch = true := by
  simp only [Engine.enters, Bool.and_eq_true, decide_eq_true_eq, Bool.not_eq_true', Bool.and_eq_false_iff, decide_eq_false_iff_not]
  constructor
  · rintro ⟨⟨⟨h1, h2⟩, h3⟩, _⟩; exact ⟨h1, h2, h3⟩
  · rintro ⟨h1, h2, h3⟩
    refine ⟨⟨⟨h1, h2⟩, h3⟩, ?_⟩
    by_cases hs : E.backend = .sqlite
    · exact .inr (hb hs tr htr h1 h2 h3)
    · exact .inl hs

theorem count_flatMap_filter {a : Action} {p : DbTrigger → Bool} {tr : DbTrigger} : ∀ {l : List DbTrigger}, l.Nodup → tr ∈ l →
    (∀ tr' ∈ l, a ∈ tr'.actions → p tr' = true → tr' = tr) → ((l.filter p).flatMap (·.actions)).count a = if p tr = true then tr.actions.count a else 0
  | [], _, h, _ => by simp at h
  | x :: l, hn, h, hu => by
    simp only [List.nodup_cons] at hn
    by_cases hx : x = tr
    · subst hx
      have hrest : ((l.filter p).flatMap (·.actions)).count a = 0 := by
        rw [List.count_eq_zero]
        intro hc
        obtain ⟨y, h1, h2⟩ := List.mem_flatMap.1 hc
        obtain ⟨h3, h4⟩ := List.mem_filter.1 h1
        exact hn.1 (hu y (List.mem_cons_of_mem _ h3) h2 h4 ▸ h3)
      by_cases hp : p x = true
      · simp [List.filter_cons, hp, List.count_append, hrest]
      · simp [List.filter_cons, hp, hrest]
    · have ht : tr ∈ l := (List.mem_cons.1 h).resolve_left (Ne.symm hx)
      have ih := count_flatMap_filter hn.2 ht (fun tr' h1 h2 h3 => hu tr' (List.mem_cons_of_mem _ h1) h2 h3)
      by_cases hp : p x = true
      · have : a ∉ x.actions := fun ha => hx (hu x (List.mem_cons_self ..) ha hp)
        simp only [List.filter_cons, hp, if_true, List.flatMap_cons, List.count_append, List.count_eq_zero.2 this, Nat.zero_add, ih]
      · simp only [List.filter_cons, hp, if_false, Bool.false_eq_true, ih]

theorem triggers_nodup {E : Engine} {D : List Denorm} (hE : Installed E D) : E.triggers.Nodup := by
  rw [hE]
  have := installed_names_nodup E.backend D
  exact List.Pairwise.of_map (f := fun tr : DbTrigger => tr.name) (fun a b h e => h (e ▸ rfl)) this

/-- How often an aggregate's action runs for a change. -/
theorem agg_timesRun {E : Engine} {D : List Denorm} {a : AggDenorm} (hE : Installed E D) (hD : AggDeclared E.backend D a) {fr : Frame}
    {ch : Change} (hb : NotBlocked E fr ch) (ht : ch.table = a.related.table) {x : Action} (hx : x = a.increment ∨ x = a.decrement) :
    ∃ tr ∈ E.triggers, tr.event = ch.event ∧ (∀ c ∈ watchedFields a.related a.skip, c ∈ tr.fields) ∧
      (E.backend ≠ .mysql → tr.ctField = none) ∧ tr.name = (a.trigger ch.event).name E.backend ∧
      E.timesRun fr ch x = if tr.fires E.backend ch = true ∧ x ∈ (a.trigger ch.event).actions then 1 else 0 := by
  obtain ⟨tr, htr, h1, h2, h3, h4, h5, h6⟩ := agg_installed hE hD ch.event
  refine ⟨tr, htr, h2, h3, h4, h6, ?_⟩
  rw [Engine.timesRun, fired_actions]
  have hu : ∀ tr' ∈ E.triggers, x ∈ tr'.actions → E.enters fr ch tr' = true → tr' = tr := by
    intro tr' htr' hin hen
    obtain ⟨ev, _, hn⟩ := agg_holder hE hD htr' hx hin
    obtain ⟨e1, e2, e3⟩ := (enters_iff hb htr').1 hen
    obtain ⟨tr2, htr2, k1, k2, _, _, _, k6⟩ := agg_installed hE hD ev
    have := installed_unique (hE ▸ htr') (hE ▸ htr2) (hn.trans k6.symm)
    subst this
    have hev : ev = ch.event := k2 ▸ e2
    subst hev
    exact installed_unique (hE ▸ htr') (hE ▸ htr) (hn.trans h6.symm)
  rw [count_flatMap_filter (triggers_nodup hE) htr hu]
  have hent : E.enters fr ch tr = true ↔ tr.fires E.backend ch = true := by
    rw [enters_iff hb htr]
    exact ⟨fun h => h.2.2, fun h => ⟨h1.trans ht.symm, h2, h⟩⟩
  by_cases hf : tr.fires E.backend ch = true
  · rw [if_pos (hent.2 hf)]
    by_cases hin : x ∈ (a.trigger ch.event).actions
    · rw [if_pos ⟨hf, hin⟩]
      rw [(installed_actions_nodup (hE ▸ htr)).count, if_pos (h5 x hin)]
    · rw [if_neg (fun h => hin h.2), List.count_eq_zero]
      intro hc
      obtain ⟨ev, k1, hn⟩ := agg_holder hE hD htr hx hc
      obtain ⟨tr2, htr2, _, k2, _, _, _, k6⟩ := agg_installed hE hD ev
      have := installed_unique (hE ▸ htr) (hE ▸ htr2) (hn.trans k6.symm)
      subst this
      have hev : ev = ch.event := k2.symm.trans h2
      exact hin (hev ▸ k1)
  · rw [if_neg (fun h => hf (hent.1 h)), if_neg (fun h => hf h.1)]

theorem agg_timesRun_other {E : Engine} {D : List Denorm} {a : AggDenorm} (hE : Installed E D) (hD : AggDeclared E.backend D a) {fr : Frame}
    {ch : Change} (ht : ch.table ≠ a.related.table) {x : Action} (hx : x = a.increment ∨ x = a.decrement) : E.timesRun fr ch x = 0 := by
  rw [Engine.timesRun, fired_actions, List.count_eq_zero]
  intro hc
  obtain ⟨tr, h1, h2⟩ := List.mem_flatMap.1 hc
  obtain ⟨htr, hen⟩ := List.mem_filter.1 h1
  obtain ⟨ev, _, hn⟩ := agg_holder hE hD htr hx h2
  obtain ⟨tr2, htr2, k1, _, _, _, _, k6⟩ := agg_installed hE hD ev
  have := installed_unique (hE ▸ htr) (hE ▸ htr2) (hn.trans k6.symm)
  subst this
  simp only [Engine.enters, Bool.and_eq_true, decide_eq_true_eq] at hen
  exact ht (hen.1.1.1.symm.trans k1)

theorem fires_insert {b : Backend} {tr : DbTrigger} {ch : Change} (hev : tr.event = .insert) (hcf : b ≠ .mysql → tr.ctField = none) :
    tr.fires b ch = true := by
  cases b <;> simp_all [DbTrigger.fires]

theorem fires_delete {b : Backend} {tr : DbTrigger} {ch : Change} (hev : tr.event = .delete) (hcf : b ≠ .mysql → tr.ctField = none) :
    tr.fires b ch = true := by
  cases b <;> simp_all [DbTrigger.fires]

theorem not_fires_update {b : Backend} {tr : DbTrigger} {ch : Change} (hev : tr.event = .update) (hcf : b ≠ .mysql → tr.ctField = none)
    (h : ¬ tr.fires b ch = true) : ∀ c ∈ tr.fields, ch.old c = ch.new c := by
  intro c hc
  have : changedCols tr.fields ch.old ch.new = false := by
    cases b <;> simp_all [DbTrigger.fires]
  exact changedCols_false.1 this c hc

/-- What a row contributes depends on the relevant columns only. -/
theorem share_congr {a : AggDenorm} {o n : Row} (h : ∀ c ∈ a.relevant, o c = n c) (k : Val) : a.share k o = a.share k n := by
  have hm : ∀ c ∈ a.filter ++ a.exclude, (c.Matches o ↔ c.Matches n) := by
    intro c hc
    have : o c.col = n c.col := h _ (by
      simp only [AggDenorm.relevant, List.cons_append, List.mem_cons, List.mem_append]
      exact .inr (.inl (List.mem_map.2 ⟨c, hc, rfl⟩)))
    simp [Cond.Matches, this]
  have hs : a.Selects k o ↔ a.Selects k n := by
    have hfk : o a.fk.column = n a.fk.column := h _ (by simp [AggDenorm.relevant])
    simp only [AggDenorm.Selects, hfk]
    have h1 : (∀ c ∈ a.filter, c.Matches o) ↔ ∀ c ∈ a.filter, c.Matches n :=
      ⟨fun hh c hc => (hm c (List.mem_append.2 (.inl hc))).1 (hh c hc), fun hh c hc => (hm c (List.mem_append.2 (.inl hc))).2 (hh c hc)⟩
    have h2 : (∃ c ∈ a.exclude, ¬ c.Matches o) ↔ ∃ c ∈ a.exclude, ¬ c.Matches n :=
      ⟨fun ⟨c, hc, hh⟩ => ⟨c, hc, fun x => hh ((hm c (List.mem_append.2 (.inr hc))).2 x)⟩,
       fun ⟨c, hc, hh⟩ => ⟨c, hc, fun x => hh ((hm c (List.mem_append.2 (.inr hc))).1 x)⟩⟩
    rw [h1, h2]
  have ha : a.amount o = a.amount n := by
    unfold AggDenorm.amount
    cases hagg : a.agg with
    | count => rfl
    | sum f =>
      have : o f = n f := h f (by simp [AggDenorm.relevant, hagg])
      simp [this]
  simp [AggDenorm.share, hs, ha]

/-- The change a row change makes to the right number of the instance with key `k`. -/
def AggDenorm.shift (a : AggDenorm) (ch : Change) (k : Val) : Int :=
  if ch.table = a.related.table then
    match ch.event with
    | .insert => a.share k ch.new
    | .update => a.share k ch.new - a.share k ch.old
    | .delete => - a.share k ch.old
  else 0

/-- What an action of a fired trigger will add to the aggregate of the instance with key `k`. -/
def AggDenorm.actEff (a : AggDenorm) (ch : Change) (k : Val) (x : Action) : Int :=
  if x = a.increment then a.share k ch.new else if x = a.decrement then - a.share k ch.old else 0

theorem sum_actEff (a : AggDenorm) (ch : Change) (k : Val) : ∀ l : List Action, (l.map (a.actEff ch k)).sum =
    l.count a.increment * a.share k ch.new - l.count a.decrement * a.share k ch.old
  | [] => by simp
  | x :: l => by
    simp only [List.map_cons, List.sum_cons, sum_actEff a ch k l, List.count_cons, AggDenorm.actEff]
    have hne := a.incr_ne_decr
    by_cases h1 : x = a.increment
    · subst h1
      have h2 : (a.increment == a.decrement) = false := by simpa using hne
      simp only [if_true, beq_self_eq_true, h2, Bool.false_eq_true, if_false, Int.natCast_add, Int.add_mul, Nat.add_zero]
      simp only [Int.natCast_one, Int.one_mul]
      omega
    · have h3 : (x == a.increment) = false := by simpa using h1
      by_cases h2 : x = a.decrement
      · subst h2
        simp only [if_neg h1, if_true, beq_self_eq_true, h3, Bool.false_eq_true, if_false, Int.natCast_add, Int.add_mul, Nat.add_zero,
          Int.natCast_one, Int.one_mul]
        omega
      · have h4 : (x == a.decrement) = false := by simpa using h2
        simp [if_neg h1, if_neg h2, h3, h4]

/-- The fired triggers will add exactly what the change adds to the right number. -/
theorem fired_shift {E : Engine} {D : List Denorm} {a : AggDenorm} (hE : Installed E D) (hD : AggDeclared E.backend D a) {fr : Frame}
    {ch : Change} (hb : NotBlocked E fr ch) (k : Val) :
    (((E.fired fr ch).filterMap Item.action).map (a.actEff ch k)).sum = a.shift ch k := by
  rw [sum_actEff]
  have e : ∀ x, ((E.fired fr ch).filterMap Item.action).count x = E.timesRun fr ch x := fun _ => rfl
  rw [e, e]
  by_cases ht : ch.table = a.related.table
  · obtain ⟨tr, htr, h1, h2, h3, hn, h4⟩ := agg_timesRun hE hD hb ht (x := a.increment) (.inl rfl)
    obtain ⟨tr', htr', _, _, _, hn', h4'⟩ := agg_timesRun hE hD hb ht (x := a.decrement) (.inr rfl)
    have := installed_unique (hE ▸ htr) (hE ▸ htr') (hn.trans hn'.symm)
    subst this
    rw [h4, h4', AggDenorm.shift, if_pos ht]
    have hne := a.incr_ne_decr
    cases hev : ch.event with
    | insert =>
      have := fires_insert (ch := ch) (h1.trans hev) h3
      have h5 : a.increment ∈ (a.trigger .insert).actions := by simp [AggDenorm.trigger, mkTrigger]
      have h6 : a.decrement ∉ (a.trigger .insert).actions := by simp [AggDenorm.trigger, mkTrigger, hne.symm]
      simp [this, h5, h6]
    | delete =>
      have := fires_delete (ch := ch) (h1.trans hev) h3
      have h5 : a.increment ∉ (a.trigger .delete).actions := by simp [AggDenorm.trigger, mkTrigger, hne]
      have h6 : a.decrement ∈ (a.trigger .delete).actions := by simp [AggDenorm.trigger, mkTrigger]
      simp [this, h5, h6]
    | update =>
      have h5 : a.increment ∈ (a.trigger .update).actions := by simp [AggDenorm.trigger, mkTrigger]
      have h6 : a.decrement ∈ (a.trigger .update).actions := by simp [AggDenorm.trigger, mkTrigger]
      by_cases hf : tr.fires E.backend ch = true
      · simp [hf, h5, h6]
      · have hsame := not_fires_update (h1.trans hev) h3 hf
        have : a.share k ch.old = a.share k ch.new := share_congr (fun c hc => hsame c (h2 c (hD.watched c hc).mem)) k
        simp [hf, this]
  · rw [agg_timesRun_other hE hD ht (.inl rfl), agg_timesRun_other hE hD ht (.inr rfl), AggDenorm.shift, if_neg ht]
    simp

end Denorm
