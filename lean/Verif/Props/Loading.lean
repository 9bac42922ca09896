import Verif.Lemmas.LoadingRun
/-!
# The order in which models are imported (C82), aggregates of abstract bases (C30)
-/
namespace Denorm

section
variable {ss ss' : List ModStmt} {L L' : Loading} {c : ClassSrc} {n : Col} {f : Func}

/-- C82, callbacks, the part that holds. Whatever the order in which models are imported and however their relations are written, each dependency of each @denormalized field is in the end the right
one, if the relations it needs are known when it is looked at (`InTime`). What is missing: the other programs; see `C82_violated_backward`, `C82_violated_class`, `C82_violated_self`. -/
theorem C82_partial (hw : WellFormed ss) (ht : InTime ss) (hr : Loading.run ss {} = .ok L) (hc : c ∈ concrete ss) (hf : (n, f) ∈ c.callbacks) :
    EachRight ((concrete ss).map (·.model)) c.model f.depends (L.depsOf c.model n f.depends.length) := by
  have h := Loading.run_part (T := c.model) (rest := []) (Loading.good_of hw ht) (by simp) Loading.inv_empty hr
  have := Loading.eachRight_of_inv (by simpa using h) (Loading.facts_of hw) hw.names hc hf
  rw [h.reg] at this
  simpa using this

/-- C82: these programs can be imported if and only if each dependency has exactly one relation to follow. -/
theorem C82_imports_partial (hw : WellFormed ss) (ht : InTime ss) : (∃ L, Loading.run ss {} = .ok L) ↔ Resolvable (concrete ss) := by
  cases h : concrete ss with
  | nil =>
    refine ⟨fun _ c hc => by simp at hc, fun _ => ?_⟩
    have h1 := Loading.run_inv (all := concrete ss) (rest := []) (T := ⟨"", "", "", "", "", "", 0, [], [], [], [], false, false⟩) (Loading.good_of hw ht) ss [] {} (by simp) Loading.inv_empty
    split at h1
    · next L hL => exact ⟨L, hL⟩
    · obtain ⟨c, hc, _⟩ := h1
      rw [h] at hc
      cases hc
  | cons c0 _ =>
    rw [← h]
    have h1 := Loading.run_inv (all := concrete ss) (rest := []) (T := c0.model) (Loading.good_of hw ht) ss [] {} (by simp) Loading.inv_empty
    split at h1
    · next L hL =>
      exact ⟨fun _ => Loading.resolvable_of_inv (by simpa using h1) (Loading.facts_of hw) hw.names, fun _ => ⟨L, hL⟩⟩
    · next e he =>
      exact ⟨fun ⟨L, hL⟩ => (by rw [he] at hL; cases hL), fun hR => absurd h1 (Loading.not_stuck (Loading.facts_of hw) hR)⟩

theorem concrete_perm (h : ss.Perm ss') : (concrete ss).Perm (concrete ss') := h.filterMap _

theorem WellFormed.perm (h : ss.Perm ss') (hw : WellFormed ss) : WellFormed ss' := by
  have hp := concrete_perm h
  have hm : ∀ c, c ∈ concrete ss' → c ∈ concrete ss := fun c hc => hp.mem_iff.2 hc
  refine ⟨(hp.map _).nodup_iff.1 hw.keys, fun c hc d hd => hw.reprs c (hm c hc) d (hm d hd), fun c hc => hw.angle c (hm c hc), fun c hc => hw.names c (hm c hc), ?_,
    fun c hc r hr s hs d hd => hw.written c (hm c hc) r hr s hs d (hm d hd)⟩
  intro c hc n j spec hD o ho
  obtain ⟨d, hd, e⟩ := hw.exist c (hm c hc) n j spec hD o ho
  exact ⟨d, hp.mem_iff.1 hd, e⟩

/-- C82: two orders in which the relations are known in time give the same: both programs can be imported or neither can, and the dependencies are the same. -/
theorem C82_order_partial (hp : ss.Perm ss') (hw : WellFormed ss) (ht : InTime ss) (ht' : InTime ss') :
    ((∃ L, Loading.run ss {} = .ok L) ↔ ∃ L, Loading.run ss' {} = .ok L) ∧
    ∀ L L', Loading.run ss {} = .ok L → Loading.run ss' {} = .ok L' → ∀ c ∈ concrete ss, ∀ n f, (n, f) ∈ c.callbacks →
      L.depsOf c.model n f.depends.length = L'.depsOf c.model n f.depends.length := by
  have hw' := hw.perm hp
  have hcp := concrete_perm hp
  have hmem : ∀ m, m ∈ (concrete ss).map (·.model) ↔ m ∈ (concrete ss').map (·.model) := fun m => (hcp.map _).mem_iff
  have hres : Resolvable (concrete ss) → Resolvable (concrete ss') := by
    intro h c hc n j spec hD o hM
    refine h c (hcp.mem_iff.2 hc) n j spec hD o ?_
    revert hM
    cases spec.other with
    | cls m => exact id
    | self => exact id
    | name s => exact fun hM => ⟨(hmem o).2 hM.1, hM.2.1, fun o' ho' => hM.2.2 o' ((hmem o').1 ho')⟩
  have hres' : Resolvable (concrete ss') → Resolvable (concrete ss) := by
    intro h c hc n j spec hD o hM
    refine h c (hcp.mem_iff.1 hc) n j spec hD o ?_
    revert hM
    cases spec.other with
    | cls m => exact id
    | self => exact id
    | name s => exact fun hM => ⟨(hmem o).1 hM.1, hM.2.1, fun o' ho' => hM.2.2 o' ((hmem o').2 ho')⟩
  refine ⟨by rw [C82_imports_partial hw ht, C82_imports_partial hw' ht']; exact ⟨hres, hres'⟩, ?_⟩
  intro L L' hL hL' c hc n f hf
  have h1 := C82_partial hw ht hL hc hf
  have h2 := C82_partial hw' ht' hL' (hcp.mem_iff.1 hc) hf
  refine List.ext_getElem? fun j => ?_
  cases hs : f.depends[j]? with
  | none =>
    have hj : f.depends.length ≤ j := List.getElem?_eq_none_iff.1 hs
    rw [List.getElem?_eq_none (by rw [h1.1]; exact hj), List.getElem?_eq_none (by rw [h2.1]; exact hj)]
  | some spec =>
    have hj := (List.getElem?_eq_some_iff.1 hs).1
    have g1 := List.getElem?_eq_getElem (l := L.depsOf c.model n f.depends.length) (i := j) (by rw [h1.1]; exact hj)
    have g2 := List.getElem?_eq_getElem (l := L'.depsOf c.model n f.depends.length) (i := j) (by rw [h2.1]; exact hj)
    rw [g1, g2, Loading.depRight_unique hmem (h1.2 j spec _ hs g1) (h2.2 j spec _ hs g2)]

/-- If no relation is written with a name, every order will do. -/
theorem InTime.of_classes (h : ∀ c ∈ concrete ss, ∀ r ∈ c.rels, ∀ s, r.to ≠ .name s) : InTime ss := by
  have hno : ∀ c ∈ concrete ss, ∀ y, ¬ c.WrittenByName y := by
    rintro c hc y ⟨r, hr, s, hs, _⟩
    exact h c hc r hr s hs
  refine ⟨fun c hc n j spec _ _ => hno c hc _, fun c hc n j spec _ o _ => ⟨hno c hc _, fun d hd _ => hno d hd _⟩, ?_⟩
  refine List.Pairwise.imp_of_mem (R := fun _ _ => True) ?_ (List.pairwise_of_forall fun _ _ => trivial)
  intro c d _ hd _ n j spec _ s _ _
  exact hno d hd _

/-- C82 without relations that are written with a name: the order does not matter at all. -/
theorem C82_classes (hp : ss.Perm ss') (hw : WellFormed ss) (h : ∀ c ∈ concrete ss, ∀ r ∈ c.rels, ∀ s, r.to ≠ .name s) :
    ((∃ L, Loading.run ss {} = .ok L) ↔ ∃ L, Loading.run ss' {} = .ok L) ∧
    ∀ L L', Loading.run ss {} = .ok L → Loading.run ss' {} = .ok L' → ∀ c ∈ concrete ss, ∀ n f, (n, f) ∈ c.callbacks →
      L.depsOf c.model n f.depends.length = L'.depsOf c.model n f.depends.length :=
  C82_order_partial hp hw (.of_classes h) (.of_classes fun c hc => h c ((concrete_perm hp).mem_iff.2 hc))

/-- C82, CountField and SumField, the part that holds. A field object that is in one class only gets this class, its name and the relation its manager belongs to, if some class is imported after the class
and after the model with the relation. What is missing: the last model; see `C82_last` and `C82_violated_last`. -/
theorem C82_aggregate_partial {p0 p1 p2 p3 : List ModStmt} {N : String} {d x : ClassSrc} {r : RelDecl} (hss : ss = p0 ++ .aggField N :: p1 ++ .cls c :: p2 ++ .cls d :: p3)
    (hw : WellFormed ss) (ht : InTime ss) (hc : c.abstract = false) (hd : d.abstract = false) (hn : (n, (objects p0).length) ∈ c.aggregates)
    (hn' : ∀ n', (n', (objects p0).length) ∈ c.aggregates → n' = n) (hu : ∀ e, .cls e ∈ p1 ++ p2 ++ .cls d :: p3 → ¬ e.Uses (objects p0).length)
    (hx : x ∈ concrete (p0 ++ .aggField N :: p1 ++ .cls c :: p2)) (hr : r ∈ x.rels) (hto : Means ((concrete ss).map (·.model)) x.model r.to c.model) (ha : r.accessor = some N)
    (huniq : ∀ x' ∈ concrete ss, ∀ r' ∈ x'.rels, Means ((concrete ss).map (·.model)) x'.model r'.to c.model → r'.accessor = some N → x' = x ∧ r' = r)
    (hcls : ∀ x' ∈ concrete ss, ∀ r' ∈ x'.rels, ∀ m, r'.to = .cls m → m ∈ (concrete ss).map (·.model)) (hrun : Loading.run ss {} = .ok L) :
    ∃ a, L.aggs[(objects p0).length]? = some a ∧ Loading.aggTriggers a = some (c.model, n, x.model, r.attname) := by
  subst hss
  have hg := Loading.good_of hw ht
  have hcm : c ∈ concrete (p0 ++ .aggField N :: p1 ++ .cls c :: p2 ++ .cls d :: p3) := by
    simp only [Loading.concrete_append, Loading.concrete_cls hc]
    simp
  have hxm : x ∈ concrete (p0 ++ .aggField N :: p1 ++ .cls c :: p2 ++ .cls d :: p3) := by
    rw [Loading.concrete_append]
    exact List.mem_append_left _ hx
  have hto' : ∀ {x' : ClassSrc} {r' : RelDecl}, x' ∈ concrete (p0 ++ .aggField N :: p1 ++ .cls c :: p2 ++ .cls d :: p3) → r' ∈ x'.rels →
      (Means ((concrete (p0 ++ .aggField N :: p1 ++ .cls c :: p2 ++ .cls d :: p3)).map (·.model)) x'.model r'.to c.model ↔ r'.to.regKey x'.model = c.model.regKey) := by
    intro x' r' hx' hr'
    constructor
    · intro h
      have := Loading.meant_of_means h
      revert this
      cases r'.to with
      | cls m => exact fun e => by rw [show c.model = m from e]; rfl
      | self => exact fun e => by rw [show c.model = x'.model from e]; rfl
      | name s => exact fun e => e.2.symm
    · intro h
      refine Loading.means_of_meant hg.facts ?_
      cases ht : r'.to with
      | cls m =>
        rw [ht] at h
        obtain ⟨e, he, rfl⟩ := List.mem_map.1 (hcls x' hx' r' hr' m ht)
        exact congrArg ClassSrc.model (hg.facts.keys c hcm e he h.symm)
      | self =>
        rw [ht] at h
        exact congrArg ClassSrc.model (hg.facts.keys c hcm x' hx' h.symm)
      | name s =>
        rw [ht] at h
        exact ⟨List.mem_map.2 ⟨c, hcm, rfl⟩, h.symm⟩
  refine ⟨_, Loading.aggregate_run hg rfl hc hd hn hn' hu hx hr ((hto' hxm hr).1 hto) ha (fun x' hx' r' hr' e1 e2 => huniq x' hx' r' hr' ((hto' hx' hr').2 e1) e2) hrun, rfl⟩

/-- C82 is false for the model that is imported last: a CountField or SumField whose manager comes from this model alone has no triggers to offer, and `denorm_init` raises. -/
theorem C82_last {N : String} {x : ClassSrc} (hw : WellFormed (ss ++ [.cls x])) (ht : InTime (ss ++ [.cls x])) (hx : x.abstract = false)
    (hno : ∀ y ∈ concrete ss, ∀ r ∈ y.rels, r.accessor ≠ some N) (hr : Loading.run (ss ++ [.cls x]) {} = .ok L) : ∀ a ∈ L.aggs, a.managerName = N → Loading.aggTriggers a = none := by
  intro a ha e
  have h : concrete (ss ++ [.cls x]) = concrete ss ++ [x] := by rw [Loading.concrete_append, Loading.concrete_cls hx]; rfl
  have := Loading.aggregate_none (all := concrete (ss ++ [.cls x])) (T := x.model) (N := N) (rest := []) (Loading.good_of hw ht) (ss ++ [.cls x]) [] {} L (by simp) Loading.inv_empty
    (by rw [h]; simpa using hno) (by simp) hr a ha e
  unfold Loading.aggTriggers
  rw [this]
  cases a.model <;> rfl

end

/-! ## Programs -/

namespace LoadDemo

def forum : Model :=
  { repr := "<class 'app.models.Forum'>", appLabel := "app", name := "Forum", table := "app_forum", pkTable := "app_forum", pk := "id", ct := 1,
    fields := [{ name := "id", attname := "id", column := "id" }, { name := "titles", attname := "titles", column := "titles" }] }

def post : Model :=
  { repr := "<class 'app.models.Post'>", appLabel := "app", name := "Post", table := "app_post", pkTable := "app_post", pk := "id", ct := 2,
    fields := [{ name := "id", attname := "id", column := "id" }, { name := "forum", attname := "forum_id", column := "forum_id", target := some "<class 'app.models.Forum'>" },
      { name := "label", attname := "label", column := "label" }] }

def node : Model :=
  { repr := "<class 'app.models.Node'>", appLabel := "app", name := "Node", table := "app_node", pkTable := "app_node", pk := "id", ct := 3,
    fields := [{ name := "id", attname := "id", column := "id" }, { name := "parent", attname := "parent_id", column := "parent_id", target := some "<class 'app.models.Node'>" }] }

/-- `forum = ForeignKey(to)` with the default `related_name` -/
def fk (to : OtherRef) : RelDecl := ⟨"forum_id", to, some "post_set"⟩

def on (o : OtherRef) : Func := ⟨some [{ other := o }]⟩

/-- A forum with a field that depends on `o`. -/
def forumOn (o : OtherRef) : ClassSrc := { model := forum, callbacks := [("titles", on o)] }

/-- A post whose ForeignKey is written `ForeignKey(to)`, with a field that depends on `o`. -/
def postOn (to o : OtherRef) : ClassSrc := { model := post, rels := [fk to], callbacks := [("label", on o)] }

def plainPost (to : OtherRef) : ClassSrc := { model := post, rels := [fk to] }

def ok (r : Except ImportErr Loading) : Bool := match r with | .ok _ => true | .error _ => false

theorem ok_iff {r : Except ImportErr Loading} : ok r = true ↔ ∃ L, r = .ok L := by
  cases r <;> simp [ok]

theorem not_ok {r : Except ImportErr Loading} (h : ok r = false) : ¬ ∃ L, r = .ok L := by
  rw [← ok_iff, h]; simp

/-- What the field "titles" of Forum depends on. -/
def titles (r : Except ImportErr Loading) : Option (List (Option Dep)) := match r with | .ok L => some (L.depsOf forum "titles" 1) | .error _ => none

theorem wf_two {a b : ClassSrc} (ha : a.model = forum ∧ a.abstract = false) (hb : b.model = post ∧ b.abstract = false) (hra : a.rels = [])
    (hrb : b.rels = [fk (.cls forum)] ∨ b.rels = [fk (.name "Forum")]) (hna : (a.callbacks.map (·.1)).Nodup) (hnb : (b.callbacks.map (·.1)).Nodup)
    (hex : ∀ c, c = a ∨ c = b → ∀ n j spec, c.Declares n j spec → ∀ o, spec.other = .cls o → o = forum ∨ o = post) : WellFormed [.cls a, .cls b] := by
  have hc : concrete [.cls a, .cls b] = [a, b] := by simp [concrete, ha.2, hb.2]
  refine ⟨?_, ?_, ?_, ?_, ?_, ?_⟩ <;> rw [hc]
  · simp only [List.map_cons, List.map_nil, ha.1, hb.1]
    decide
  · intro c hc d hd
    simp only [List.mem_cons, List.not_mem_nil, or_false] at hc hd
    rcases hc with rfl | rfl <;> rcases hd with rfl | rfl <;> simp only [ha.1, hb.1] <;> decide
  · intro c hc
    simp only [List.mem_cons, List.not_mem_nil, or_false] at hc
    rcases hc with rfl | rfl <;> simp only [ha.1, hb.1] <;> decide
  · intro c hc
    simp only [List.mem_cons, List.not_mem_nil, or_false] at hc
    rcases hc with rfl | rfl
    · exact hna
    · exact hnb
  · intro c hc n j spec hD o ho
    simp only [List.mem_cons, List.not_mem_nil, or_false] at hc
    rcases hex c hc n j spec hD o ho with rfl | rfl
    · exact ⟨a, by simp, ha.1⟩
    · exact ⟨b, by simp, hb.1⟩
  · intro c hc r hr s hs d hd hp
    simp only [List.mem_cons, List.not_mem_nil, or_false] at hc hd
    rcases hc with rfl | rfl
    · rw [hra] at hr
      cases hr
    · rcases hrb with h | h <;> rw [h] at hr <;> rw [List.mem_singleton.1 hr] at hs hp <;> cases hs
      rcases hd with rfl | rfl
      · rw [hb.1, ha.1]
        exact .inl ⟨by decide, rfl, rfl⟩
      · rw [hb.1] at hp
        refine absurd hp ?_
        rintro (⟨f, hf, h1, t, h2, h3⟩ | ⟨f, hf, _⟩ | ⟨f, hf, _⟩)
        · simp only [post, List.mem_cons, List.not_mem_nil, or_false] at hf
          rcases hf with rfl | rfl | rfl
          · cases h2
          · cases h2
            revert h3
            decide
          · cases h2
        · cases hf
        · cases hf

end LoadDemo

open LoadDemo in
/-- C82 is false when a name is used on both sides: `depend_on_related('Post')` in Forum and `ForeignKey('Forum')` in Post. With Post first the field depends on the posts of the forum; with Forum first
the import fails. -/
theorem C82_violated_backward :
    WellFormed [.cls (forumOn (.name "Post")), .cls (plainPost (.name "Forum"))] ∧
    (∃ r, titles (Loading.run [.cls (plainPost (.name "Forum")), .cls (forumOn (.name "Post"))] {}) = some [some ⟨forum, post, .backward r, []⟩]) ∧
    ¬ ∃ L, Loading.run [.cls (forumOn (.name "Post")), .cls (plainPost (.name "Forum"))] {} = .ok L := by
  refine ⟨?_, ⟨{ name := "forum", attname := "forum_id", column := "forum_id", target := some "<class 'app.models.Forum'>" }, by decide +kernel⟩, not_ok (by decide +kernel)⟩
  refine wf_two ⟨rfl, rfl⟩ ⟨rfl, rfl⟩ rfl (.inr rfl) (by decide) (by decide) ?_
  rintro c (rfl | rfl) n j spec ⟨f, hf, hj⟩ o ho
  · simp only [forumOn, List.mem_singleton, Prod.mk.injEq] at hf
    rw [hf.2] at hj
    cases j with
    | zero =>
      cases hj
      cases ho
    | succ j => simp [on, Func.depends] at hj
  · cases hf

open LoadDemo in
/-- C82 is false when the class is given to depend_on_related and its name to ForeignKey: the import fails in each order. With the class in both places the program is imported. -/
theorem C82_violated_class :
    (¬ ∃ L, Loading.run [.cls (forumOn (.name "Nothing")), .cls (postOn (.name "Forum") (.cls forum))] {} = .ok L) ∧
    (¬ ∃ L, Loading.run [.cls (postOn (.name "Forum") (.cls forum)), .cls (forumOn (.name "Nothing"))] {} = .ok L) ∧
    ∃ L, Loading.run [.cls (forumOn (.name "Nothing")), .cls (postOn (.cls forum) (.cls forum))] {} = .ok L :=
  ⟨not_ok (by decide +kernel), not_ok (by decide +kernel), ok_iff.1 (by decide +kernel)⟩

open LoadDemo in
/-- C82 is false for a model that depends on itself, if its ForeignKey is written with its own name instead of `'self'`. -/
theorem C82_violated_self :
    (¬ ∃ L, Loading.run [.cls { model := node, rels := [⟨"parent_id", .name "Node", none⟩], callbacks := [("path", ⟨some [{ other := .self, type := some .forward }]⟩)] }] {} = .ok L) ∧
    ∃ L, Loading.run [.cls { model := node, rels := [⟨"parent_id", .self, none⟩], callbacks := [("path", ⟨some [{ other := .self, type := some .forward }]⟩)] }] {} = .ok L :=
  ⟨not_ok (by decide +kernel), ok_iff.1 (by decide +kernel)⟩

namespace LoadDemo

/-- Whether `denorm_init` finds what it needs for each aggregate object of the program. -/
def triggers (r : Except ImportErr Loading) : List (Option (Model × Col × Model × String)) := match r with | .ok L => L.aggs.map Loading.aggTriggers | .error _ => []

def counted : ClassSrc := { model := forum, aggregates := [("post_count", 0)] }

def other : ClassSrc := { model := node }

end LoadDemo

open LoadDemo in
/-- C82 is false for CountField: `post_count = CountField('post_set')` in Forum. If Post is the last model of the project, the field has no triggers and `denorm_init` raises; if any other model follows, all is well. -/
theorem C82_violated_last :
    triggers (Loading.run [.aggField "post_set", .cls counted, .cls (plainPost (.cls forum))] {}) = [none] ∧
    triggers (Loading.run [.aggField "post_set", .cls counted, .cls (plainPost (.cls forum)), .cls other] {}) = [some (forum, "post_count", post, "forum_id")] := by
  decide +kernel

namespace LoadDemo

/-- Two subclasses of an abstract base, and the items that point to the first. -/
def subA : Model := { forum with repr := "<class 'app.models.A'>", name := "A", table := "app_a", pkTable := "app_a" }
def subB : Model := { forum with repr := "<class 'app.models.B'>", name := "B", table := "app_b", pkTable := "app_b", ct := 4 }
def itemA : Model :=
  { post with repr := "<class 'app.models.ItemA'>", name := "ItemA", table := "app_itema", pkTable := "app_itema",
              fields := [{ name := "id", attname := "id", column := "id" }, { name := "a", attname := "a_id", column := "a_id", target := some "<class 'app.models.A'>" }] }

def abstractBase : List ModStmt :=
  [.aggField "items", .cls { model := forum, abstract := true, aggregates := [("count", 0)] }, .cls { model := subA, aggregates := [("count", 0)] },
    .cls { model := itemA, rels := [⟨"a_id", .cls subA, some "items"⟩] }, .cls other, .cls { model := subB, aggregates := [("count", 0)] }]

end LoadDemo

open LoadDemo in
/-- C30 is false for CountField and SumField: the field of an abstract base has one object for all subclasses. Here A and B inherit `count = CountField('items')` and the items point to A. The only triggers are those
on the items of A, and they update B. -/
theorem C30_violated_aggregate : triggers (Loading.run abstractBase {}) = [some (subB, "count", itemA, "a_id")] := by
  decide +kernel

/-! ## Examples -/

namespace LoadDemo

/-- Post depends on Forum, and its ForeignKey is written with a name. -/
def forward : List ModStmt := [.cls { model := forum }, .cls (postOn (.name "Forum") (.name "Forum"))]

theorem forward_wf : WellFormed forward := by
  refine wf_two ⟨rfl, rfl⟩ ⟨rfl, rfl⟩ rfl (.inr rfl) (by decide) (by decide) ?_
  rintro c (rfl | rfl) n j spec ⟨f, hf, hj⟩ o ho
  · cases hf
  · simp only [postOn, List.mem_singleton, Prod.mk.injEq] at hf
    rw [hf.2] at hj
    cases j with
    | zero =>
      cases hj
      cases ho
    | succ j => simp [on, Func.depends] at hj

theorem forward_other {c : ClassSrc} (hc : c ∈ [({ model := forum } : ClassSrc), postOn (.name "Forum") (.name "Forum")]) {n : Col} {j : Nat} {spec : DepSpec} (h : c.Declares n j spec) :
    c = postOn (.name "Forum") (.name "Forum") ∧ spec.other = .name "Forum" := by
  obtain ⟨f, hf, hj⟩ := h
  simp only [List.mem_cons, List.not_mem_nil, or_false] at hc
  rcases hc with rfl | rfl
  · cases hf
  · refine ⟨rfl, ?_⟩
    simp only [postOn, List.mem_singleton, Prod.mk.injEq] at hf
    rw [hf.2] at hj
    cases j with
    | zero => cases hj; rfl
    | succ j => simp [on, Func.depends] at hj

theorem forward_inTime : InTime forward ∧ InTime forward.reverse := by
  have h1 : concrete forward = [{ model := forum }, postOn (.name "Forum") (.name "Forum")] := rfl
  have h2 : concrete forward.reverse = [postOn (.name "Forum") (.name "Forum"), { model := forum }] := rfl
  have hm : ∀ c, c ∈ concrete forward.reverse → c ∈ concrete forward := by
    intro c hc
    rw [h2] at hc
    rw [h1]
    simp only [List.mem_cons, List.not_mem_nil, or_false] at hc ⊢
    exact hc.symm
  constructor
  · refine ⟨?_, ?_, ?_⟩
    · intro c hc n j spec hD hs
      rw [(forward_other hc hD).2] at hs
      cases hs
    · intro c hc n j spec hD o hs
      rw [(forward_other hc hD).2] at hs
      cases hs
    · rw [h1]
      simp only [List.pairwise_cons, List.mem_singleton, forall_eq, List.not_mem_nil, false_implies, implies_true, List.Pairwise.nil, and_true]
      rintro n j spec ⟨f, hf, _⟩
      cases hf
  · refine ⟨?_, ?_, ?_⟩
    · intro c hc n j spec hD hs
      rw [(forward_other (hm c hc) hD).2] at hs
      cases hs
    · intro c hc n j spec hD o hs
      rw [(forward_other (hm c hc) hD).2] at hs
      cases hs
    · rw [h2]
      simp only [List.pairwise_cons, List.mem_singleton, forall_eq, List.not_mem_nil, false_implies, implies_true, List.Pairwise.nil, and_true]
      rintro n j spec _ s _ _ ⟨r, hr, _⟩
      cases hr

theorem wf_plain {ss : List ModStmt} {cs : List ClassSrc} (hc : concrete ss = cs) (hk : (cs.map fun c => c.model.regKey).Nodup)
    (hr : ∀ c ∈ cs, ∀ d ∈ cs, c.model.repr = d.model.repr → c.model = d.model) (ha : ∀ c ∈ cs, c.model.repr.toList.head? = some '<') (hn : ∀ c ∈ cs, c.callbacks = [])
    (hw : ∀ c ∈ cs, ∀ r ∈ c.rels, ∃ m, r.to = .cls m) : WellFormed ss := by
  refine ⟨by rwa [hc], by rwa [hc], by rwa [hc], ?_, ?_, ?_⟩ <;> rw [hc]
  · intro c h
    rw [hn c h]
    exact .nil
  · rintro c h n j spec ⟨f, hf, _⟩
    rw [hn c h] at hf
    cases hf
  · intro c h r hr s hs
    obtain ⟨m, e⟩ := hw c h r hr
    rw [e] at hs
    cases hs

/-- A program with a CountField. -/
def counting : List ModStmt := [.aggField "post_set", .cls counted, .cls (plainPost (.cls forum)), .cls other]

theorem counting_wf : WellFormed counting := by
  refine wf_plain (cs := [counted, plainPost (.cls forum), other]) rfl (by decide) (by decide) (by decide) ?_ ?_
  · intro c hc
    simp only [List.mem_cons, List.not_mem_nil, or_false] at hc
    rcases hc with rfl | rfl | rfl <;> rfl
  · intro c hc r hr
    simp only [List.mem_cons, List.not_mem_nil, or_false] at hc
    rcases hc with rfl | rfl | rfl
    · cases hr
    · rw [List.mem_singleton.1 hr]
      exact ⟨forum, rfl⟩
    · cases hr

theorem counting_rel {c : ClassSrc} {r : RelDecl} (hc : c ∈ [counted, plainPost (.cls forum), other]) (hr : r ∈ c.rels) : c = plainPost (.cls forum) ∧ r = fk (.cls forum) := by
  simp only [List.mem_cons, List.not_mem_nil, or_false] at hc
  rcases hc with rfl | rfl | rfl
  · cases hr
  · exact ⟨rfl, List.mem_singleton.1 hr⟩
  · cases hr

theorem counting_inTime : InTime counting := .of_classes fun c hc r hr s hs => by
  rw [(counting_rel (c := c) hc hr).2] at hs
  cases hs

end LoadDemo

open LoadDemo in
/-- `C82_partial`, `C82_imports_partial` and `C82_order_partial`: Forum first, or Post first, with the name of a model that is not there yet in both places. -/
example : forward.Perm forward.reverse ∧ WellFormed forward ∧ InTime forward ∧ InTime forward.reverse ∧ (∃ L, Loading.run forward {} = .ok L) ∧ ∃ L, Loading.run forward.reverse {} = .ok L :=
  ⟨(List.reverse_perm _).symm, forward_wf, forward_inTime.1, forward_inTime.2, ok_iff.1 (by decide +kernel), ok_iff.1 (by decide +kernel)⟩

open LoadDemo in
/-- `C82_classes`. -/
example : WellFormed counting ∧ ∀ c ∈ concrete counting, ∀ r ∈ c.rels, ∀ s, r.to ≠ .name s :=
  ⟨counting_wf, fun c hc r hr s hs => by rw [(counting_rel (c := c) hc hr).2] at hs; cases hs⟩

open LoadDemo in
/-- `C82_aggregate_partial` -/
example {L : Loading} (h : Loading.run counting {} = .ok L) : ∃ a, L.aggs[0]? = some a ∧ Loading.aggTriggers a = some (forum, "post_count", post, "forum_id") := by
  refine C82_aggregate_partial (p0 := []) (p1 := []) (p2 := [.cls (plainPost (.cls forum))]) (p3 := []) (c := counted) (d := other) (x := plainPost (.cls forum)) (r := fk (.cls forum)) rfl counting_wf
    counting_inTime rfl rfl (List.mem_singleton.2 rfl) ?_ ?_ (.tail _ (.head _)) (.head _) rfl rfl (fun x' hx' r' hr' _ _ => counting_rel hx' hr') ?_ h
  · intro n' hn'
    cases List.mem_singleton.1 hn'
    rfl
  · intro e he
    simp only [List.nil_append, List.cons_append, List.mem_cons, ModStmt.cls.injEq, List.not_mem_nil, or_false] at he
    rcases he with rfl | rfl <;> rintro ⟨n, hn⟩ <;> cases hn
  · intro x' hx' r' hr' m hm
    rw [(counting_rel (c := x') hx' hr').2] at hm
    cases hm
    exact .head _

open LoadDemo in
example : ∃ L, Loading.run counting {} = .ok L := ok_iff.1 (by decide +kernel)

open LoadDemo in
/-- `C82_last` -/
example : ∃ L, Loading.run ([.aggField "post_set", .cls counted] ++ [.cls (plainPost (.cls forum))]) {} = .ok L ∧ ∀ y ∈ concrete [.aggField "post_set", .cls counted], ∀ r ∈ y.rels, r.accessor ≠ some "post_set" := by
  obtain ⟨L, h⟩ := ok_iff.1 (show ok (Loading.run ([.aggField "post_set", .cls counted] ++ [.cls (plainPost (.cls forum))]) {}) = true by decide +kernel)
  refine ⟨L, h, fun y hy r hr => ?_⟩
  rw [List.mem_singleton.1 (show y ∈ [counted] from hy)] at hr
  cases hr

end Denorm
