import Verif.Spec.Loading
import Verif.Lemmas.Classes
/-!
# Importing models whose relations are not complete yet
-/
namespace Denorm
namespace Loading
variable {L L' : Loading} {this other x y m : Model}

/-! ## What `find_fks` and `find_m2ms` see -/

theorem filter_map_same {α : Type _} {p : α → Bool} {g : α → α} : ∀ {l : List α}, (∀ a ∈ l, p (g a) = p a ∧ (p a = true → g a = a)) → (l.map g).filter p = l.filter p
  | [], _ => rfl
  | a :: l, h => by
    obtain ⟨h1, h2⟩ := h a (by simp)
    have ih := filter_map_same (l := l) fun b hb => h b (by simp [hb])
    simp only [List.map_cons, List.filter_cons, h1, ih]
    split
    · next hp => rw [h2 hp]
    · rfl

theorem pyRepr_ne {s t : String} (h : t.toList.head? = some '<') : lower (pyRepr s) ≠ lower t := by
  rw [ne_eq, lower_iff]
  intro h2
  have h3 := congrArg List.head? h2
  have h4 : (pyRepr s).toList.head? = some '\'' := by
    unfold pyRepr
    rw [String.toList_append, String.toList_append]
    rfl
  rw [List.head?_map, List.head?_map, h, h4] at h3
  exact absurd h3 (by decide)

/-- No relation of `x` to `y` has a string instead of the class. -/
def Clear (L : Loading) (x y : Model) : Prop := ∀ a s, L.string x.regKey a = some s → ¬ x.PointsTo a y

theorem seen_iff {k : List Char × List Char} {a t : String} {y : Model} (ha : y.repr.toList.head? = some '<') (hc : ∀ s, L.string k a = some s → lower t ≠ lower y.repr) :
    (lower (L.seenTarget k a t) == lower y.repr) = (lower t == lower y.repr) ∧ ((lower t == lower y.repr) = true → L.seenTarget k a t = t) := by
  unfold seenTarget
  cases h : L.string k a with
  | none => simp
  | some s =>
    have h1 : (lower t == lower y.repr) = false := by simpa using hc s h
    have h2 : (lower (pyRepr s) == lower y.repr) = false := by simpa using pyRepr_ne ha
    simp only [h1, h2]
    simp

theorem findFks_view (ha : y.repr.toList.head? = some '<') (hc : L.Clear x y) (fk : Option String) : findFks (L.view x) (L.view y) fk = findFks x y fk := by
  have hy : (L.view y).repr = y.repr := rfl
  have hf : (L.view x).fields = x.fields.map fun f => { f with target := f.target.map (L.seenTarget x.regKey f.attname) } := rfl
  have base : findFks (L.view x) (L.view y) none = findFks x y none := by
    unfold findFks
    simp only
    rw [hy, hf, List.filter_filter, List.filter_filter]
    apply filter_map_same
    intro f hf
    cases ht : f.target with
    | none => simp
    | some t =>
      have := seen_iff (L := L) (k := x.regKey) (a := f.attname) (t := t) ha fun s hs h => hc f.attname s hs (.inl ⟨f, hf, rfl, t, ht, h⟩)
      simp only [Option.map_some, Option.isSome_some, Bool.and_true]
      exact ⟨this.1, fun h => by rw [this.2 h]; cases f; simp_all⟩
  cases fk with
  | none => exact base
  | some n =>
    have h : ∀ a b : Model, findFks a b (some n) = if n = "" then findFks a b none else (findFks a b none).filter fun x => x.attname == n || x.attname == n ++ "_id" :=
      fun a b => rfl
    rw [h, h, base]

theorem findM2Ms_view (ha : y.repr.toList.head? = some '<') (hc : L.Clear x y) (fk : Option String) : findM2Ms (L.view x) (L.view y) fk = findM2Ms x y fk := by
  have hy : (L.view y).repr = y.repr := rfl
  have hm : (L.view x).m2ms = x.m2ms.map fun f => { f with target := L.seenTarget x.regKey f.attname f.target } := rfl
  have hp : (L.view x).privates = x.privates.map fun g => { g with target := g.target.map (L.seenTarget x.regKey g.attname) } := rfl
  have base : ((L.view x).m2ms.map M2MLike.m2m ++ (L.view x).privates.map M2MLike.generic).filter (fun z => lower z.targetRepr == lower (L.view y).repr) =
      (x.m2ms.map M2MLike.m2m ++ x.privates.map M2MLike.generic).filter (fun z => lower z.targetRepr == lower y.repr) := by
    rw [hy, hm, hp, List.filter_append, List.filter_append]
    congr 1
    · rw [List.map_map, ← filter_map_same (l := x.m2ms.map M2MLike.m2m) (g := fun z => match z with
        | .m2m f => .m2m { f with target := L.seenTarget x.regKey f.attname f.target }
        | z => z)]
      · rw [List.map_map]; rfl
      · intro z hz
        obtain ⟨f, hf, rfl⟩ := List.mem_map.1 hz
        have := seen_iff (L := L) (k := x.regKey) (a := f.attname) (t := f.target) ha fun s hs h => hc f.attname s hs (.inr (.inl ⟨f, hf, rfl, h⟩))
        exact ⟨this.1, fun h => by simp only [this.2 h]⟩
    · rw [List.map_map, ← filter_map_same (l := x.privates.map M2MLike.generic) (g := fun z => match z with
        | .generic g => .generic { g with target := g.target.map (L.seenTarget x.regKey g.attname) }
        | z => z)]
      · rw [List.map_map]; rfl
      · intro z hz
        obtain ⟨g, hg, rfl⟩ := List.mem_map.1 hz
        simp only [M2MLike.targetRepr]
        cases ht : g.target with
        | none => exact ⟨by simp, fun _ => by cases g; simp_all⟩
        | some t =>
          have := seen_iff (L := L) (k := x.regKey) (a := g.attname) (t := t) ha fun s hs h => hc g.attname s hs (.inr (.inr ⟨g, hg, rfl, t, ht, h⟩))
          simp only [Option.map_some, Option.getD_some]
          exact ⟨this.1, fun h => by rw [this.2 h]; cases g; simp_all⟩
  unfold findM2Ms
  simp only
  rw [base]

theorem view_eq_iff (h : x.repr = y.repr → x = y) : L.view y = L.view x ↔ y = x :=
  ⟨fun e => (h (congrArg Model.repr e).symm).symm, fun e => by rw [e]⟩

/-- A dependency between models whose relations to each other are known is resolved as if everything were known. -/
theorem resolved_view (h1 : this.repr.toList.head? = some '<') (h2 : other.repr.toList.head? = some '<') (hr : this.repr = other.repr → this = other)
    (hc : L.Clear this other) (hc' : L.Clear other this) (fk : Option String) (ty : Option RelType) :
    resolvedModel (L.view this) (L.view other) fk ty = resolvedModel this other fk ty := by
  have : candidates (L.view this) (L.view other) fk ty = candidates this other fk ty := by
    have hb : decide (L.view other ≠ L.view this) = decide (other ≠ this) := by
      simp only [ne_eq, view_eq_iff hr]
    unfold candidates
    simp only [findFks_view h2 hc, findFks_view h1 hc', findM2Ms_view h2 hc, findM2Ms_view h1 hc', hb]
  unfold resolvedModel
  rw [this]

/-! ## The registry -/

/-- The models have different labels and different `repr`s, and the relations written with a name lead to the model with this name. -/
structure Facts (done : List ClassSrc) : Prop where
  keys : ∀ c ∈ done, ∀ d ∈ done, c.model.regKey = d.model.regKey → c = d
  reprs : ∀ c ∈ done, ∀ d ∈ done, c.model.repr = d.model.repr → c.model = d.model
  angle : ∀ c ∈ done, c.model.repr.toList.head? = some '<'
  written : ∀ c ∈ done, ∀ r ∈ c.rels, ∀ s, r.to = .name s → ∀ d ∈ done, c.model.PointsTo r.attname d.model → c.model.keyOf s = d.model.regKey

variable {all done : List ClassSrc} {todo : List LazyOp} {op : LazyOp} {T : Model}

theorem lookup_some {k : List Char × List Char} (hr : L.registered = done.map (·.model)) (h : L.lookup k = some m) : ∃ c ∈ done, c.model = m ∧ m.regKey = k := by
  unfold lookup at h
  have h1 := List.mem_of_find?_eq_some h
  have h2 := List.find?_some h
  rw [hr, List.mem_map] at h1
  obtain ⟨c, h3, h4⟩ := h1
  exact ⟨c, h3, h4, by simpa using h2⟩

theorem lookup_mem (hf : Facts done) (hr : L.registered = done.map (·.model)) {c : ClassSrc} (hc : c ∈ done) : L.lookup c.model.regKey = some c.model := by
  cases h : L.lookup c.model.regKey with
  | none =>
    unfold lookup at h
    rw [List.find?_eq_none] at h
    exact absurd (h c.model (by rw [hr]; exact List.mem_map.2 ⟨c, hc, rfl⟩)) (by simp)
  | some m =>
    obtain ⟨d, h1, h2, h3⟩ := lookup_some hr h
    rw [← h2] at h3
    rw [← h2, hf.keys d h1 c hc h3]

/-- The models that a reference stands for, among `reg`. -/
def Meant (reg : List Model) (this : Model) : OtherRef → Model → Prop
  | .cls m, o => o = m
  | .self, o => o = this
  | .name s, o => o ∈ reg ∧ o.regKey = this.keyOf s

/-- A resolved dependency is right. -/
def Entry (done : List ClassSrc) (reg : List Model) (e : (Model × Col × Nat) × Dep) : Prop :=
  ∃ c ∈ done, ∃ spec, c.Declares e.1.2.1 e.1.2.2 spec ∧ e.1.1 = c.model ∧
    ∃ o r, Meant reg c.model spec.other o ∧ resolvedModel c.model o spec.fkName spec.type = .ok r ∧ e.2 = ⟨c.model, o, r, spec.skip⟩

/-- Where an operation comes from. -/
inductive Shape (done : List ClassSrc) : LazyOp → Prop
  | relation (c : ClassSrc) (r : RelDecl) (hc : c ∈ done) (hr : r ∈ c.rels) : Shape done (.relation c.model r)
  | dep (c : ClassSrc) (n : Col) (j : Nat) (spec : DepSpec) (s : String) (hc : c ∈ done) (hd : c.Declares n j spec) (hs : spec.other = .name s) :
      Shape done (.dep c.model n j spec)

/-- A relation of a model is not behind a dependency of this model. -/
def Before (a b : LazyOp) : Prop := ∀ this n j spec m r, a = .dep this n j spec → b = .relation m r → m ≠ this

/-- The model that an operation belongs to. -/
def _root_.Denorm.LazyOp.own : LazyOp → Model
  | .relation m _ => m
  | .dep this _ _ _ => this

/-- What holds while the operations `todo`, which waited for `T`, remain to be run. -/
structure Inv (all done : List ClassSrc) (T : Model) (todo : List LazyOp) (L : Loading) : Prop where
  sub : ∀ c ∈ done, c ∈ all
  reg : L.registered = done.map (·.model)
  hid : ∀ h ∈ L.hidden, ∃ m r, m.regKey = h.1 ∧ r.attname = h.2.1 ∧ r.to = .name h.2.2 ∧
    (((LazyOp.keys (.relation m r)).2, .relation m r) ∈ L.pending ∨ .relation m r ∈ todo)
  pen : ∀ p ∈ L.pending, L.lookup p.1 = none ∧ p.1 = (LazyOp.keys p.2).2 ∧ Shape done p.2
  ord : L.pending.Pairwise fun p q => p.1 = q.1 → Before p.2 q.2
  shape : ∀ o ∈ todo, Shape done o ∧ (o.own = T ∨ (LazyOp.keys o).2 = T.regKey)
  tord : todo.Pairwise fun a b => Before a b ∧ ∀ n j spec m r, a = .dep T n j spec → b ≠ .relation m r
  cross : ∀ p ∈ L.pending, ∀ b ∈ todo, p.1 = b.keys.2 → Before p.2 b
  ent : ∀ e ∈ L.deps, Entry all L.registered e
  every : ∀ c ∈ done, ∀ n j spec, c.Declares n j spec → (∃ d, ((c.model, n, j), d) ∈ L.deps) ∨
    ∃ s, spec.other = .name s ∧ ((c.model.keyOf s, .dep c.model n j spec) ∈ L.pending ∨ .dep c.model n j spec ∈ todo)
  acc : ∀ c ∈ done, ∀ r ∈ c.rels, (r.to.regKey c.model, .relation c.model r) ∈ L.pending ∨ .relation c.model r ∈ todo ∨
    ∃ t, L.lookup (r.to.regKey c.model) = some t ∧ ∀ n, r.accessor = some n → (t, n, c.model, r.attname) ∈ L.accessors
  accs : ∀ x ∈ L.accessors, ∃ c ∈ done, ∃ r ∈ c.rels, L.lookup (r.to.regKey c.model) = some x.1 ∧ r.accessor = some x.2.1 ∧ x.2.2 = (c.model, r.attname)

/-- Some dependency cannot be resolved. -/
def Stuck (done : List ClassSrc) (reg : List Model) : Prop :=
  ∃ c ∈ done, ∃ n j spec o, c.Declares n j spec ∧ Meant reg c.model spec.other o ∧ ∀ r, resolvedModel c.model o spec.fkName spec.type ≠ .ok r

theorem Entry.mono {reg : List Model} {e : (Model × Col × Nat) × Dep} (h : ∀ c ∈ done, c ∈ all) : Entry done reg e → Entry all reg e := by
  rintro ⟨c, hc, h2⟩
  exact ⟨c, h c hc, h2⟩

theorem Stuck.mono {reg : List Model} (h : ∀ c ∈ done, c ∈ all) : Stuck done reg → Stuck all reg := by
  rintro ⟨c, hc, h2⟩
  exact ⟨c, h c hc, h2⟩

theorem string_some {k : List Char × List Char} {a s : String} (h : L.string k a = some s) : (k, a, s) ∈ L.hidden := by
  unfold string at h
  rw [Option.map_eq_some_iff] at h
  obtain ⟨x, h1, h2⟩ := h
  have h3 := List.find?_some h1
  have h4 := List.mem_of_find?_eq_some h1
  simp only [decide_eq_true_eq] at h3
  obtain ⟨x1, x2, x3⟩ := x
  simp only at h2 h3
  rw [← h3.1, ← h3.2, ← h2]
  exact h4

/-- The resolution of a dependency whose relations are known. -/
theorem resolve_of (hf : Facts done) {c d : ClassSrc} (hc : c ∈ done) (hd : d ∈ done) (h1 : L.Clear c.model d.model) (h2 : L.Clear d.model c.model) {n : Col} {j : Nat} {spec : DepSpec}
    (hD : c.Declares n j spec) (hM : Meant L.registered c.model spec.other d.model) :
    match L.resolve c.model n j spec d.model with
    | .ok L' => ∃ dep, L' = { L with deps := L.deps ++ [((c.model, n, j), dep)] } ∧ Entry done L.registered ((c.model, n, j), dep)
    | .error _ => Stuck done L.registered := by
  have h := resolved_view (L := L) (hf.angle c hc) (hf.angle d hd) (hf.reprs c hc d hd) h1 h2 spec.fkName spec.type
  unfold resolve
  rw [h]
  cases hr : resolvedModel c.model d.model spec.fkName spec.type with
  | error e => exact ⟨c, hc, n, j, spec, d.model, hD, hM, fun r h => by rw [hr] at h; cases h⟩
  | ok r => exact ⟨_, rfl, c, hc, spec, hD, rfl, d.model, r, hM, hr, rfl⟩

/-- One operation. -/
theorem request_inv (hf : Facts done) (hlate : ∀ c ∈ done, c.model ≠ T → ∀ n j spec s, c.Declares n j spec → spec.other = .name s → c.model.keyOf s = T.regKey →
      ∀ d ∈ done, d.model = T → ¬ d.WrittenByName c.model) (hT : ∃ d ∈ done, d.model = T) (h : Inv all done T (op :: todo) L) :
    match L.request op with
    | .ok L' => Inv all done T todo L' ∧ L'.aggs = L.aggs
    | .error _ => Stuck all L.registered := by
  obtain ⟨hs, ho⟩ := h.shape op (by simp)
  have hk1 : ∃ x, L.lookup op.keys.1 = some x := by
    cases hs with
    | relation c r hc hr => exact ⟨_, lookup_mem hf h.reg hc⟩
    | dep c n j spec s hc hd hs => exact ⟨_, lookup_mem hf h.reg hc⟩
  obtain ⟨x, hx⟩ := hk1
  unfold request
  rw [hx]
  simp only
  cases hk2 : L.lookup op.keys.2 with
  | none =>
    refine ⟨?_, rfl⟩
    refine { sub := h.sub, reg := h.reg, hid := ?_, pen := ?_, ord := ?_, shape := fun o ho => h.shape o (by simp [ho]), tord := (List.pairwise_cons.1 h.tord).2, cross := ?_, ent := h.ent,
             every := ?_, acc := ?_, accs := h.accs }
    · intro y hy
      obtain ⟨m, r, e1, e2, e3, e4⟩ := h.hid y hy
      refine ⟨m, r, e1, e2, e3, ?_⟩
      rcases e4 with e4 | e4
      · exact .inl (List.mem_append_left _ e4)
      · rcases List.mem_cons.1 e4 with e4 | e4
        · exact .inl (by rw [e4]; simp)
        · exact .inr e4
    · intro p hp
      rcases List.mem_append.1 hp with hp | hp
      · exact h.pen p hp
      · rw [List.mem_singleton.1 hp]
        exact ⟨hk2, rfl, hs⟩
    · rw [List.pairwise_append]
      refine ⟨h.ord, by simp, fun p hp q hq => ?_⟩
      rw [List.mem_singleton.1 hq]
      exact h.cross p hp op (by simp)
    · intro p hp b hb
      rcases List.mem_append.1 hp with hp | hp
      · exact h.cross p hp b (by simp [hb])
      · rw [List.mem_singleton.1 hp]
        exact fun _ => ((List.pairwise_cons.1 h.tord).1 b hb).1
    · intro c hc n j spec hD
      rcases h.every c hc n j spec hD with h1 | ⟨s, h1, h2⟩
      · exact .inl h1
      · refine .inr ⟨s, h1, ?_⟩
        rcases h2 with h2 | h2
        · exact .inl (List.mem_append_left _ h2)
        · rcases List.mem_cons.1 h2 with h2 | h2
          · refine .inl (List.mem_append_right _ ?_)
            rw [← h2, List.mem_singleton]
            simp only [LazyOp.keys, h1, OtherRef.regKey]
          · exact .inr h2
    · intro c hc r hr
      rcases h.acc c hc r hr with h1 | h1 | h1
      · exact .inl (List.mem_append_left _ h1)
      · rcases List.mem_cons.1 h1 with h1 | h1
        · refine .inl (List.mem_append_right _ ?_)
          rw [← h1, List.mem_singleton]
          rfl
        · exact .inr (.inl h1)
      · exact .inr (.inr h1)
  | some other =>
    simp only
    obtain ⟨d, hd, hdm, hdk⟩ := lookup_some h.reg hk2
    cases hs with
    | relation c r hc hr =>
      refine ⟨?_, rfl⟩
      refine { sub := h.sub, reg := h.reg, hid := ?_, pen := h.pen, ord := h.ord, shape := fun o ho => h.shape o (by simp [ho]), tord := (List.pairwise_cons.1 h.tord).2,
               cross := fun p hp b hb => h.cross p hp b (by simp [hb]), ent := h.ent, every := ?_, acc := ?_, accs := ?_ }
      · intro y hy
        simp only [resolveRelation, List.mem_filter] at hy
        obtain ⟨hy, hy'⟩ := hy
        obtain ⟨m, r', e1, e2, e3, e4⟩ := h.hid y hy
        refine ⟨m, r', e1, e2, e3, ?_⟩
        rcases e4 with e4 | e4
        · exact .inl e4
        · rcases List.mem_cons.1 e4 with e4 | e4
          · simp only [LazyOp.relation.injEq] at e4
            rw [e4.1] at e1
            rw [e4.2] at e2
            simp [e1, e2] at hy'
          · exact .inr e4
      · intro c' hc' n j spec hD
        rcases h.every c' hc' n j spec hD with h1 | ⟨s, h1, h2⟩
        · exact .inl h1
        · refine .inr ⟨s, h1, ?_⟩
          rcases h2 with h2 | h2
          · exact .inl h2
          · rcases List.mem_cons.1 h2 with h2 | h2
            · cases h2
            · exact .inr h2
      · intro c' hc' r' hr'
        have hup : ∀ z, z ∈ L.accessors → z ∈ (L.resolveRelation c.model r other).accessors := by
          intro z hz
          simp only [resolveRelation]
          split
          · exact List.mem_append_left _ hz
          · exact hz
        rcases h.acc c' hc' r' hr' with h1 | h1 | ⟨t, h1, h2⟩
        · exact .inl h1
        · rcases List.mem_cons.1 h1 with h1 | h1
          · simp only [LazyOp.relation.injEq] at h1
            refine .inr (.inr ⟨other, ?_, fun n hn => ?_⟩)
            · rw [h1.1, h1.2]
              exact hk2
            · rw [h1.1, h1.2]
              rw [h1.2] at hn
              simp [resolveRelation, hn]
          · exact .inr (.inl h1)
        · exact .inr (.inr ⟨t, h1, fun n hn => hup _ (h2 n hn)⟩)
      · intro z hz
        simp only [resolveRelation] at hz
        split at hz
        · next n hn =>
          rcases List.mem_append.1 hz with hz | hz
          · exact h.accs z hz
          · rw [List.mem_singleton.1 hz]
            exact ⟨c, hc, r, hr, hk2, hn, rfl⟩
        · exact h.accs z hz
    | dep c n j spec s hc hD hs =>
      have hks : c.model.keyOf s = d.model.regKey := by
        rw [hdm, hdk]
        simp only [LazyOp.keys, hs, OtherRef.regKey]
      have hpend : ∀ {p}, p ∈ L.pending → ∀ e ∈ done, p.1 ≠ e.model.regKey := by
        intro p hp e he h1
        have := (h.pen p hp).1
        rw [h1, lookup_mem hf h.reg he] at this
        cases this
      have hrel : ∀ (e : ClassSrc), e ∈ done → ∀ a t, L.string e.model.regKey a = some t → ∃ r ∈ e.rels, r.attname = a ∧ r.to = .name t ∧
          (((LazyOp.keys (.relation e.model r)).2, .relation e.model r) ∈ L.pending ∨ .relation e.model r ∈ todo) := by
        intro e he a t hst
        obtain ⟨m, r, e1, e2, e3, e4⟩ := h.hid _ (string_some hst)
        have e5 : ∃ c' ∈ done, r ∈ c'.rels ∧ c'.model = m := by
          have : Shape done (.relation m r) := by
            rcases e4 with e4 | e4
            · exact (h.pen _ e4).2.2
            · exact (h.shape _ e4).1
          cases this with
          | relation c' _ h1 h2 => exact ⟨c', h1, h2, rfl⟩
        obtain ⟨c', e6, e7, e8⟩ := e5
        have e9 := hf.keys c' e6 e he (by rw [e8]; exact e1)
        rw [← e9]
        refine ⟨r, e7, e2, e3, ?_⟩
        rw [e8]
        rcases e4 with e4 | e4
        · exact .inl e4
        · exact .inr ((List.mem_cons.1 e4).resolve_left (by simp))
      have hclear1 : L.Clear c.model d.model := by
        intro a t hst hp
        obtain ⟨r, e1, e2, e3, e4⟩ := hrel c hc a t hst
        rw [← e2] at hp
        have e5 := hf.written c hc r e1 t e3 d hd hp
        rcases e4 with e4 | e4
        · exact hpend e4 d hd (by simp only [LazyOp.keys, e3, OtherRef.regKey, e5])
        · exact ((List.pairwise_cons.1 h.tord).1 _ e4).1 _ _ _ _ _ _ rfl rfl rfl
      have hclear2 : L.Clear d.model c.model := by
        intro a t hst hp
        obtain ⟨r, e1, e2, e3, e4⟩ := hrel d hd a t hst
        rw [← e2] at hp
        have e5 := hf.written d hd r e1 t e3 c hc hp
        rcases e4 with e4 | e4
        · exact hpend e4 c hc (by simp only [LazyOp.keys, e3, OtherRef.regKey, e5])
        · have e6 := (List.pairwise_cons.1 h.tord).1 _ e4
          have e7 : c.model ≠ T := fun e => e6.2 n j spec d.model r (by rw [e]) rfl
          have e8 : d.model = T := by
            have e9 := ho.resolve_left e7
            simp only [LazyOp.keys, hs, OtherRef.regKey] at e9
            obtain ⟨d', g1, g2⟩ := hT
            rw [← g2, ← hf.keys d hd d' g1 (by rw [g2, ← e9, hks])]
          exact hlate c hc e7 n j spec s hD hs (by rw [hks, e8]) d hd e8 ⟨r, e1, t, e3, hp⟩
      have hres := resolve_of hf hc hd hclear1 hclear2 hD (by
        rw [hs]
        exact ⟨by rw [h.reg]; exact List.mem_map.2 ⟨d, hd, rfl⟩, hks.symm⟩)
      rw [hdm] at hres
      split at hres
      · next L' hL' =>
        obtain ⟨dep, e1, e2⟩ := hres
        simp only [hL']
        refine ⟨?_, by rw [e1]⟩
        rw [e1]
        refine { sub := h.sub, reg := h.reg, hid := ?_, pen := h.pen, ord := h.ord, shape := fun o ho => h.shape o (by simp [ho]), tord := (List.pairwise_cons.1 h.tord).2,
                 cross := fun p hp b hb => h.cross p hp b (by simp [hb]), ent := ?_, every := ?_, acc := ?_, accs := h.accs }
        · intro y hy
          obtain ⟨m, r', g1, g2, g3, g4⟩ := h.hid y hy
          exact ⟨m, r', g1, g2, g3, g4.imp_right fun g => (List.mem_cons.1 g).resolve_left (by simp)⟩
        · intro e he
          rcases List.mem_append.1 he with he | he
          · exact h.ent e he
          · rw [List.mem_singleton.1 he]
            exact e2.mono h.sub
        · intro c' hc' n' j' spec' hD'
          rcases h.every c' hc' n' j' spec' hD' with ⟨d', g1⟩ | ⟨s', g1, g2⟩
          · exact .inl ⟨d', List.mem_append_left _ g1⟩
          · rcases g2 with g2 | g2
            · exact .inr ⟨s', g1, .inl g2⟩
            · rcases List.mem_cons.1 g2 with g2 | g2
              · simp only [LazyOp.dep.injEq] at g2
                exact .inl ⟨dep, by rw [g2.1, g2.2.1, g2.2.2.1]; simp⟩
              · exact .inr ⟨s', g1, .inr g2⟩
        · intro c' hc' r' hr'
          rcases h.acc c' hc' r' hr' with g | g | g
          · exact .inl g
          · exact .inr (.inl ((List.mem_cons.1 g).resolve_left (by simp)))
          · exact .inr (.inr g)
      · next e he =>
        simp only [he]
        exact hres.mono h.sub

/-- All of them. -/
theorem requestAll_inv (hf : Facts done) (hlate : ∀ c ∈ done, c.model ≠ T → ∀ n j spec s, c.Declares n j spec → spec.other = .name s → c.model.keyOf s = T.regKey →
      ∀ d ∈ done, d.model = T → ¬ d.WrittenByName c.model) (hT : ∃ d ∈ done, d.model = T) :
    ∀ (todo : List LazyOp) (L : Loading), Inv all done T todo L →
    match L.requestAll todo with
    | .ok L' => Inv all done T [] L' ∧ L'.aggs = L.aggs
    | .error _ => Stuck all (done.map (·.model))
  | [], L, h => ⟨h, rfl⟩
  | op :: todo, L, h => by
    have h1 := request_inv hf hlate hT h
    unfold requestAll
    split at h1
    · next L' hL' =>
      have h2 := requestAll_inv hf hlate hT todo L' h1.1
      try simp only [hL']
      split at h2
      · next L'' hL'' =>
        exact ⟨h2.1, h2.2.trans h1.2⟩
      · next e he =>
        exact h2
    · next e he =>
      try simp only [he]
      rw [h.reg] at h1
      exact h1

/-- Operations whose class is not registered wait. -/
theorem requestAll_waiting {k : List Char × List Char} : ∀ (ops : List LazyOp) (L : Loading), L.lookup k = none → (∀ op ∈ ops, op.keys.1 = k) →
    L.requestAll ops = .ok { L with pending := L.pending ++ ops.map fun op => (k, op) }
  | [], L, _, _ => by simp [requestAll]
  | op :: ops, L, hk, ho => by
    have h1 := ho op (by simp)
    unfold requestAll request
    rw [h1, hk]
    simp only
    rw [requestAll_waiting ops { L with pending := L.pending ++ [(k, op)] } hk fun o h => ho o (by simp [h])]
    simp

theorem contributeAggs_eq : ∀ (l : List (Col × Nat)) (L : Loading), ∃ a, L.contributeAggs m l = { L with aggs := a }
  | [], L => ⟨L.aggs, rfl⟩
  | (n, i) :: l, L => by
    obtain ⟨a, h⟩ := contributeAggs_eq l { L with aggs := L.aggs.modify i fun a => { a with model := some m, fieldname := n } }
    exact ⟨a, by rw [contributeAggs, h]⟩

/-! ## The dependencies of a class -/

/-- The dependencies that wait for a model. -/
def waiting (this : Model) (n : Col) : Nat → List DepSpec → List LazyOp
  | _, [] => []
  | j, s :: l =>
    match s.other with
    | .name _ => .dep this n j s :: waiting this n (j + 1) l
    | _ => waiting this n (j + 1) l

theorem mem_waiting {n : Col} {o : LazyOp} : ∀ {l : List DepSpec} {j : Nat}, o ∈ waiting x n j l →
    ∃ i spec s, l[i]? = some spec ∧ spec.other = .name s ∧ o = .dep x n (j + i) spec
  | [], _, h => by simp [waiting] at h
  | sp :: l, j, h => by
    have key : o ∈ waiting x n (j + 1) l → ∃ i spec s, (sp :: l)[i]? = some spec ∧ spec.other = .name s ∧ o = .dep x n (j + i) spec := by
      intro h
      obtain ⟨i, spec, s, h1, h2, h3⟩ := mem_waiting h
      exact ⟨i + 1, spec, s, by simpa using h1, h2, by rw [h3]; congr 1; omega⟩
    unfold waiting at h
    split at h
    · next s hs =>
      rcases List.mem_cons.1 h with h | h
      · exact ⟨0, sp, s, by simp, hs, by simpa using h⟩
      · exact key h
    · exact key h

theorem waiting_mem {n : Col} {s : String} {spec : DepSpec} (hs : spec.other = .name s) : ∀ {l : List DepSpec} {j i : Nat}, l[i]? = some spec → .dep x n (j + i) spec ∈ waiting x n j l
  | [], _, _, h => by simp at h
  | sp :: l, j, 0, h => by
    simp only [List.getElem?_cons_zero, Option.some.injEq] at h
    subst h
    simp [waiting, hs]
  | sp :: l, j, i + 1, h => by
    have h1 : .dep x n (j + 1 + i) spec ∈ waiting x n (j + 1) l := waiting_mem hs (by simpa using h)
    have h2 : j + (i + 1) = j + 1 + i := by omega
    unfold waiting
    rw [h2]
    split
    · exact List.mem_cons_of_mem _ h1
    · exact h1

/-- The dependencies of one field: those on classes are resolved, those on names wait. -/
theorem setupDeps_spec {done' : List ClassSrc} {c : ClassSrc} (hf : Facts done') (hc : c ∈ done') {n : Col} (hk : ∀ L' : Loading, L'.registered = L.registered → L'.lookup c.model.regKey = none)
    (hself : ∀ j spec, c.Declares n j spec → spec.other = .self → L.Clear c.model c.model)
    (hcls : ∀ j spec o, c.Declares n j spec → spec.other = .cls o → ∃ d ∈ done', d.model = o ∧ L.Clear c.model o ∧ L.Clear o c.model) {reg : List Model} :
    ∀ (l : List DepSpec) (j : Nat) (L1 : Loading), (∀ i spec, l[i]? = some spec → c.Declares n (j + i) spec) → L1.registered = L.registered → L1.hidden = L.hidden →
    match L1.setupDeps c.model n j l with
    | .ok L2 => ∃ D, L2 = { L1 with deps := L1.deps ++ D, pending := L1.pending ++ (waiting c.model n j l).map fun o => (c.model.regKey, o) } ∧
        (∀ e ∈ D, Entry done' reg e) ∧ ∀ i spec, l[i]? = some spec → (∃ d, ((c.model, n, j + i), d) ∈ D) ∨ ∃ s, spec.other = .name s
    | .error _ => Stuck done' reg
  | [], j, L1, _, _, _ => ⟨[], by simp [waiting], by simp, by simp⟩
  | sp :: l, j, L1, hl, hreg, hhid => by
    have hD : c.Declares n j sp := hl 0 sp (by simp)
    have hl' : ∀ i spec, l[i]? = some spec → c.Declares n (j + 1 + i) spec := by
      intro i spec h
      have := hl (i + 1) spec (by simpa using h)
      rwa [show j + 1 + i = j + (i + 1) by omega]
    have hclear : ∀ {a b : Model}, L.Clear a b → L1.Clear a b := by
      intro a b h
      unfold Clear string at h ⊢
      rw [hhid]
      exact h
    -- a dependency that is resolved at once
    have now : ∀ o, (∃ d ∈ done', d.model = o) → L1.Clear c.model o → L1.Clear o c.model → Meant reg c.model sp.other o →
        L1.setupDep c.model n j sp = L1.resolve c.model n j sp o → (∀ s, sp.other ≠ .name s) →
        match L1.setupDeps c.model n j (sp :: l) with
        | .ok L2 => ∃ D, L2 = { L1 with deps := L1.deps ++ D, pending := L1.pending ++ (waiting c.model n j (sp :: l)).map fun o => (c.model.regKey, o) } ∧
            (∀ e ∈ D, Entry done' reg e) ∧ ∀ i spec, (sp :: l)[i]? = some spec → (∃ d, ((c.model, n, j + i), d) ∈ D) ∨ ∃ s, spec.other = .name s
        | .error _ => Stuck done' reg := by
      rintro o ⟨d, hd, rfl⟩ h1 h2 h3 h4 h5
      have hw : waiting c.model n j (sp :: l) = waiting c.model n (j + 1) l := by
        rw [waiting]
        split
        · next s hs => exact absurd hs (h5 s)
        · rfl
      have hv := resolved_view (L := L1) (hf.angle c hc) (hf.angle d hd) (hf.reprs c hc d hd) h1 h2 sp.fkName sp.type
      unfold setupDeps
      rw [h4]
      unfold resolve
      rw [hv]
      cases hr : resolvedModel c.model d.model sp.fkName sp.type with
      | error e => exact ⟨c, hc, n, j, sp, d.model, hD, h3, fun r h => by rw [hr] at h; cases h⟩
      | ok r =>
        simp only
        have ih := setupDeps_spec hf hc hk hself hcls (reg := reg) l (j + 1) { L1 with deps := L1.deps ++ [((c.model, n, j), ⟨c.model, d.model, r, sp.skip⟩)] } hl' hreg hhid
        split at ih
        · next L2 hL2 =>
          obtain ⟨D, e1, e2, e3⟩ := ih
          refine ⟨((c.model, n, j), ⟨c.model, d.model, r, sp.skip⟩) :: D, ?_, ?_, ?_⟩
          · rw [e1, hw]
            simp
          · intro e he
            rcases List.mem_cons.1 he with he | he
            · rw [he]
              exact ⟨c, hc, sp, hD, rfl, d.model, r, h3, hr, rfl⟩
            · exact e2 e he
          · intro i spec hi
            cases i with
            | zero => exact .inl ⟨_, List.mem_cons_self ..⟩
            | succ i =>
              rcases e3 i spec (by simpa using hi) with ⟨d', h⟩ | h
              · exact .inl ⟨d', by rw [show j + (i + 1) = j + 1 + i by omega]; exact List.mem_cons_of_mem _ h⟩
              · exact .inr h
        · next e he =>
          exact ih
    cases ho : sp.other with
    | cls o =>
      obtain ⟨d, hd, h1, h2, h3⟩ := hcls j sp o hD ho
      exact now o ⟨d, hd, h1⟩ (hclear h2) (hclear h3) (by rw [ho]; rfl) (by simp only [setupDep, ho]) (by simp [ho])
    | self =>
      have h1 := hself j sp hD ho
      exact now c.model ⟨c, hc, rfl⟩ (hclear h1) (hclear h1) (by rw [ho]; rfl) (by simp only [setupDep, ho]) (by simp [ho])
    | name s =>
      have hs : L1.setupDep c.model n j sp = .ok { L1 with pending := L1.pending ++ [(c.model.regKey, .dep c.model n j sp)] } := by
        unfold setupDep
        simp only [ho]
        unfold request
        have : (LazyOp.dep c.model n j sp).keys.1 = c.model.regKey := rfl
        rw [this, hk L1 hreg]
      unfold setupDeps
      rw [hs]
      simp only
      have ih := setupDeps_spec hf hc hk hself hcls (reg := reg) l (j + 1) { L1 with pending := L1.pending ++ [(c.model.regKey, .dep c.model n j sp)] } hl' hreg hhid
      split at ih
      · next L2 hL2 =>
        obtain ⟨D, e1, e2, e3⟩ := ih
        refine ⟨D, ?_, e2, ?_⟩
        · rw [e1]
          simp [waiting, ho]
        · intro i spec hi
          cases i with
          | zero =>
            simp only [List.getElem?_cons_zero, Option.some.injEq] at hi
            exact .inr ⟨s, by rw [← hi]; exact ho⟩
          | succ i =>
            rcases e3 i spec (by simpa using hi) with ⟨d', h⟩ | h
            · exact .inl ⟨d', by rw [show j + (i + 1) = j + 1 + i by omega]; exact h⟩
            · exact .inr h
      · next e he =>
        exact ih

/-- Of all fields of a class. -/
def waitingAll (this : Model) : List (Col × Func) → List LazyOp
  | [] => []
  | (n, f) :: l => waiting this n 0 f.depends ++ waitingAll this l

theorem mem_waitingAll {o : LazyOp} : ∀ {l : List (Col × Func)}, o ∈ waitingAll x l → ∃ n f j spec s, (n, f) ∈ l ∧ f.depends[j]? = some spec ∧ spec.other = .name s ∧ o = .dep x n j spec
  | [], h => by simp [waitingAll] at h
  | (n, f) :: l, h => by
    rcases List.mem_append.1 h with h | h
    · obtain ⟨i, spec, s, h1, h2, h3⟩ := mem_waiting h
      exact ⟨n, f, i, spec, s, by simp, h1, h2, by rw [h3, Nat.zero_add]⟩
    · obtain ⟨n', f', j, spec, s, h1, h2⟩ := mem_waitingAll h
      exact ⟨n', f', j, spec, s, by simp [h1], h2⟩

theorem waitingAll_mem {n : Col} {f : Func} {j : Nat} {s : String} {spec : DepSpec} (hs : spec.other = .name s) (hj : f.depends[j]? = some spec) :
    ∀ {l : List (Col × Func)}, (n, f) ∈ l → .dep x n j spec ∈ waitingAll x l
  | (n', f') :: l, h => by
    rcases List.mem_cons.1 h with h | h
    · simp only [Prod.mk.injEq] at h
      obtain ⟨rfl, rfl⟩ := h
      have := waiting_mem (x := x) (n := n) (j := 0) hs hj
      rw [Nat.zero_add] at this
      exact List.mem_append_left _ this
    · exact List.mem_append_right _ (waitingAll_mem hs hj h)

/-- `setupCallbacks` does to each field what `setupDeps_spec` says. -/
theorem setupCallbacks_spec {done' : List ClassSrc} {c : ClassSrc} (hf : Facts done') (hc : c ∈ done') (hk : ∀ L' : Loading, L'.registered = L.registered → L'.lookup c.model.regKey = none)
    (hself : ∀ n j spec, c.Declares n j spec → spec.other = .self → L.Clear c.model c.model)
    (hcls : ∀ n j spec o, c.Declares n j spec → spec.other = .cls o → ∃ d ∈ done', d.model = o ∧ L.Clear c.model o ∧ L.Clear o c.model) {reg : List Model} :
    ∀ (l : List (Col × Func)) (L1 : Loading), (∀ p ∈ l, p ∈ c.callbacks) → L1.registered = L.registered → L1.hidden = L.hidden →
    match L1.setupCallbacks c.model l with
    | .ok L2 => ∃ D, L2 = { L1 with deps := L1.deps ++ D, pending := L1.pending ++ (waitingAll c.model l).map fun o => (c.model.regKey, o) } ∧
        (∀ e ∈ D, Entry done' reg e) ∧ ∀ n f j spec, (n, f) ∈ l → f.depends[j]? = some spec → (∃ d, ((c.model, n, j), d) ∈ D) ∨ ∃ s, spec.other = .name s
    | .error _ => Stuck done' reg
  | [], L1, _, _, _ => ⟨[], by simp [waitingAll], by simp, by simp⟩
  | (n, f) :: l, L1, hl, hreg, hhid => by
    have h1 := setupDeps_spec (n := n) hf hc hk (hself n) (hcls n) (reg := reg) f.depends 0 L1
      (fun i spec h => ⟨f, hl (n, f) (by simp), by rw [Nat.zero_add]; exact h⟩) hreg hhid
    unfold setupCallbacks
    split at h1
    · next L2 hL2 =>
      obtain ⟨D, e1, e2, e3⟩ := h1
      try simp only [hL2]
      have h2 := setupCallbacks_spec hf hc hk hself hcls (reg := reg) l L2 (fun p hp => hl p (by simp [hp])) (by rw [e1]; exact hreg) (by rw [e1]; exact hhid)
      split at h2
      · next L3 hL3 =>
        obtain ⟨D', g1, g2, g3⟩ := h2
        refine ⟨D ++ D', ?_, ?_, ?_⟩
        · rw [g1, e1]
          simp [waitingAll]
        · intro e he
          rcases List.mem_append.1 he with he | he
          · exact e2 e he
          · exact g2 e he
        · intro n' f' j spec hm hj
          rcases List.mem_cons.1 hm with hm | hm
          · simp only [Prod.mk.injEq] at hm
            obtain ⟨rfl, rfl⟩ := hm
            rcases e3 j spec hj with ⟨d, h⟩ | h
            · exact .inl ⟨d, List.mem_append_left _ (by rwa [Nat.zero_add] at h)⟩
            · exact .inr h
          · rcases g3 n' f' j spec hm hj with ⟨d, h⟩ | h
            · exact .inl ⟨d, List.mem_append_right _ h⟩
            · exact .inr h
      · next e he => exact h2
    · next e he =>
      try simp only [he]
      exact h1

/-! ## A class statement -/

theorem Facts.mono (h : ∀ c ∈ done, c ∈ all) (hf : Facts all) : Facts done :=
  ⟨fun c hc d hd => hf.keys c (h c hc) d (h d hd), fun c hc d hd => hf.reprs c (h c hc) d (h d hd), fun c hc => hf.angle c (h c hc),
    fun c hc r hr s hs d hd => hf.written c (h c hc) r hr s hs d (h d hd)⟩

theorem Meant.mono {reg reg' : List Model} {o : OtherRef} (h : ∀ m ∈ reg, m ∈ reg') (hm : Meant reg x o y) : Meant reg' x o y := by
  cases o with
  | cls m => exact hm
  | self => exact hm
  | name s => exact ⟨h _ hm.1, hm.2⟩

theorem Entry.grow {reg reg' : List Model} {e : (Model × Col × Nat) × Dep} (h : ∀ m ∈ reg, m ∈ reg') : Entry done reg e → Entry done reg' e := by
  rintro ⟨c, hc, spec, h1, h2, o, r, h3, h4⟩
  exact ⟨c, hc, spec, h1, h2, o, r, h3.mono h, h4⟩

theorem Stuck.grow {reg reg' : List Model} (h : ∀ m ∈ reg, m ∈ reg') : Stuck done reg → Stuck done reg' := by
  rintro ⟨c, hc, n, j, spec, o, h1, h2, h3⟩
  exact ⟨c, hc, n, j, spec, o, h1, h2.mono h, h3⟩

theorem Shape.mono {o : LazyOp} {done' : List ClassSrc} (h : ∀ c ∈ done, c ∈ done') : Shape done o → Shape done' o
  | .relation c r hc hr => .relation c r (h c hc) hr
  | .dep c n j spec s hc hd hs => .dep c n j spec s (h c hc) hd hs

/-- The strings that a class brings along. -/
def strings (c : ClassSrc) : List ((List Char × List Char) × String × String) := c.rels.filterMap fun (r : RelDecl) => match r.to with
  | .name s => some (c.model.regKey, r.attname, s)
  | _ => none

theorem mem_strings {c : ClassSrc} {h : (List Char × List Char) × String × String} (hh : h ∈ strings c) :
    ∃ r ∈ c.rels, r.to = .name h.2.2 ∧ h.1 = c.model.regKey ∧ h.2.1 = r.attname := by
  unfold strings at hh
  obtain ⟨r, h1, h2⟩ := List.mem_filterMap.1 hh
  refine ⟨r, h1, ?_⟩
  split at h2
  · next s hs =>
    simp only [Option.some.injEq] at h2
    rw [← h2]
    exact ⟨hs, rfl, rfl⟩
  · cases h2

/-- What the statements before and this one did. -/
theorem classStmt_inv {c : ClassSrc} (hf : Facts all) (hsub : ∀ d ∈ done ++ [c], d ∈ all) {T : Model} (habs : c.abstract = false) (hfree : L.lookup c.model.regKey = none)
    (hlate : ∀ d ∈ done, ∀ n j spec s, d.Declares n j spec → spec.other = .name s → d.model.keyOf s = c.model.regKey → ¬ c.WrittenByName d.model)
    (hself : ∀ n j spec, c.Declares n j spec → spec.other = .self → ¬ c.WrittenByName c.model)
    (hcls : ∀ n j spec o, c.Declares n j spec → spec.other = .cls o → ∃ d ∈ all, d.model = o ∧ ¬ c.WrittenByName o ∧ ¬ d.WrittenByName c.model)
    (h : Inv all done T [] L) :
    match L.classStmt c with
    | .ok L' => Inv all (done ++ [c]) c.model [] L' ∧ L'.aggs = (L.contributeAggs c.model c.aggregates).setupAggs.aggs
    | .error _ => Stuck all ((done ++ [c]).map (·.model)) := by
  have hc : c ∈ all := hsub c (by simp)
  have hds : ∀ d ∈ done, d ∈ all := fun d hd => hsub d (by simp [hd])
  have hnew : ∀ d ∈ done, d.model ≠ c.model := by
    intro d hd he
    have := lookup_mem (hf.mono hds) h.reg hd
    rw [he, hfree] at this
    cases this
  -- the relations
  have h1 : L.contributeRels c.model c.rels = .ok { L with hidden := L.hidden ++ strings c, pending := L.pending ++ (c.rels.map (LazyOp.relation c.model)).map fun o => (c.model.regKey, o) } := by
    unfold contributeRels
    refine (requestAll_waiting (k := c.model.regKey) _ _ ?_ ?_).trans rfl
    · exact hfree
    · intro op hop
      obtain ⟨r, _, rfl⟩ := List.mem_map.1 hop
      rfl
  unfold classStmt
  rw [if_neg (by simp [habs]), if_neg (by simp [hfree]), h1]
  simp only
  generalize hL1 : ({ L with hidden := L.hidden ++ strings c, pending := L.pending ++ (c.rels.map (LazyOp.relation c.model)).map fun o => (c.model.regKey, o) } : Loading) = L1
  obtain ⟨aggs, ha⟩ := contributeAggs_eq (m := c.model) c.aggregates L1
  have ha' : aggs = (L.contributeAggs c.model c.aggregates).aggs := by
    have key : ∀ (l : List (Col × Nat)) (A B : Loading), A.aggs = B.aggs → (A.contributeAggs c.model l).aggs = (B.contributeAggs c.model l).aggs := by
      intro l
      induction l with
      | nil => exact fun A B h => h
      | cons p l ih =>
        intro A B h
        exact ih _ _ (by simp [h])
    have := key c.aggregates L1 L (by rw [← hL1])
    rw [ha] at this
    exact this
  -- the strings that are there belong to relations written with a name
  have hhid : ∀ (e : ClassSrc), e ∈ all → ∀ a t, L1.string e.model.regKey a = some t → ∃ r ∈ e.rels, r.attname = a ∧ r.to = .name t := by
    intro e he a t hst
    have h2 := string_some hst
    rw [← hL1] at h2
    rcases List.mem_append.1 h2 with h2 | h2
    · obtain ⟨m, r, e1, e2, e3, e4⟩ := h.hid _ h2
      have := (h.pen _ (e4.resolve_right (by simp))).2.2
      cases this with
      | relation c' _ h3 h4 =>
        have := hf.keys c' (hds c' h3) e he e1
        rw [← this]
        exact ⟨r, h4, e2, e3⟩
    · obtain ⟨r, e1, e2, e3, e4⟩ := mem_strings h2
      have := hf.keys e he c hc e3
      rw [this]
      exact ⟨r, e1, e4.symm, e2⟩
  have hclear : ∀ e ∈ all, ∀ o, ¬ e.WrittenByName o → L1.Clear e.model o := by
    intro e he o hn a t hst hp
    obtain ⟨r, e1, e2, e3⟩ := hhid e he a t hst
    exact hn ⟨r, e1, t, e3, by rw [e2]; exact hp⟩
  have hreg1 : L1.registered = L.registered := by rw [← hL1]
  have h2 := setupCallbacks_spec (L := L1) (reg := (done ++ [c]).map (·.model)) hf hc
    (fun L' hL' => by unfold lookup; rw [hL', hreg1]; exact hfree)
    (fun n j spec hD hs => hclear c hc _ (hself n j spec hD hs))
    (fun n j spec o hD hs => by
      obtain ⟨d, e1, e2, e3, e4⟩ := hcls n j spec o hD hs
      exact ⟨d, e1, e2, hclear c hc o e3, by rw [← e2]; exact hclear d e1 _ e4⟩)
    c.callbacks (L1.contributeAggs c.model c.aggregates) (fun p hp => hp) (by rw [ha]) (by rw [ha])
  split at h2
  · next L2 hL2 =>
    obtain ⟨D, e1, e2, e3⟩ := h2
    simp only [hL2]
    generalize hA : L2.setupAggs.aggs = A
    have hA' : A = (L.contributeAggs c.model c.aggregates).setupAggs.aggs := by
      obtain ⟨aggs', ha2⟩ := contributeAggs_eq (m := c.model) c.aggregates L
      have g : aggs' = aggs := by rw [ha', ha2]
      rw [← hA, e1, ha, ha2, g, ← hL1]
      rfl
    -- the state when the operations that waited for the class begin
    have hL3 : L2.setupAggs = { L with hidden := L.hidden ++ strings c, deps := L.deps ++ D, aggs := A, pending := L.pending ++ ((c.rels.map (LazyOp.relation c.model)).map fun o =>
        (c.model.regKey, o)) ++ (waitingAll c.model c.callbacks).map fun o => (c.model.regKey, o) } := by
      have : L2.setupAggs = { L2 with aggs := A } := by rw [← hA]; rfl
      rw [this, e1, ha, ← hL1]
    rw [hL3]
    unfold register
    have hmine : ((L.pending ++ ((c.rels.map (LazyOp.relation c.model)).map fun o => (c.model.regKey, o)) ++ (waitingAll c.model c.callbacks).map fun o =>
        (c.model.regKey, o)).filter fun p => p.1 = c.model.regKey).map (·.2) =
        (L.pending.filter fun p => p.1 = c.model.regKey).map (·.2) ++ c.rels.map (LazyOp.relation c.model) ++ waitingAll c.model c.callbacks := by
      have key : ∀ l : List LazyOp, ((l.map fun o => (c.model.regKey, o)).filter fun p => p.1 = c.model.regKey).map (·.2) = l := by
        intro l
        rw [List.filter_eq_self.2]
        · simp [List.map_map, Function.comp_def]
        · intro p hp
          obtain ⟨o, _, rfl⟩ := List.mem_map.1 hp
          simp
      rw [List.filter_append, List.filter_append, List.map_append, List.map_append, key, key]
    have hrest : ((L.pending ++ ((c.rels.map (LazyOp.relation c.model)).map fun o => (c.model.regKey, o)) ++ (waitingAll c.model c.callbacks).map fun o =>
        (c.model.regKey, o)).filter fun p => p.1 ≠ c.model.regKey) = L.pending.filter fun p => p.1 ≠ c.model.regKey := by
      have key : ∀ l : List LazyOp, ((l.map fun o => (c.model.regKey, o)).filter fun p => p.1 ≠ c.model.regKey) = [] := by
        intro l
        rw [List.filter_eq_nil_iff]
        intro p hp
        obtain ⟨o, _, rfl⟩ := List.mem_map.1 hp
        simp
      rw [List.filter_append, List.filter_append, key, key, List.append_nil, List.append_nil]
    simp only [hmine, hrest]
    have hup : ∀ k t, L.lookup k = some t → (L.registered ++ [c.model]).find? (fun m => m.regKey = k) = some t := by
      intro k t ht
      rw [List.find?_append]
      unfold lookup at ht
      rw [ht]
      rfl
    have hpd : ∀ p ∈ L.pending, ∀ this n j spec, p.2 = .dep this n j spec → this ≠ c.model := by
      intro p hp this n j spec hp2 he
      have := (h.pen p hp).2.2
      rw [hp2] at this
      cases this with
      | dep c' _ _ _ s hc' _ _ => exact hnew c' hc' he
    have hsplit : ∀ p ∈ L.pending, p ∈ L.pending.filter (fun p => p.1 ≠ c.model.regKey) ∨ p.2 ∈ (L.pending.filter fun p => p.1 = c.model.regKey).map (·.2) := by
      intro p hp
      by_cases hk : p.1 = c.model.regKey
      · exact .inr (List.mem_map.2 ⟨p, List.mem_filter.2 ⟨hp, by simp [hk]⟩, rfl⟩)
      · exact .inl (List.mem_filter.2 ⟨hp, by simp [hk]⟩)
    have hgrow : ∀ m ∈ L.registered, m ∈ L.registered ++ [c.model] := fun m hm => List.mem_append_left _ hm
    have hregs : L.registered ++ [c.model] = (done ++ [c]).map (·.model) := by rw [h.reg]; simp
    have hmono : ∀ d ∈ done, d ∈ done ++ [c] := fun d hd => List.mem_append_left _ hd
    have hI : Inv all (done ++ [c]) c.model ((L.pending.filter fun p => p.1 = c.model.regKey).map (·.2) ++ c.rels.map (LazyOp.relation c.model) ++ waitingAll c.model c.callbacks)
        { L with registered := L.registered ++ [c.model], hidden := L.hidden ++ strings c, deps := L.deps ++ D, aggs := A,
                 pending := L.pending.filter fun p => p.1 ≠ c.model.regKey } := by
      refine { sub := hsub, reg := hregs, hid := ?_, pen := ?_, ord := ?_, shape := ?_, tord := ?_, cross := ?_, ent := ?_, every := ?_, acc := ?_, accs := ?_ }
      · intro y hy
        rcases List.mem_append.1 hy with hy | hy
        · obtain ⟨m, r, g1, g2, g3, g4⟩ := h.hid y hy
          refine ⟨m, r, g1, g2, g3, ?_⟩
          rcases hsplit _ (g4.resolve_right (by simp)) with g | g
          · exact .inl g
          · exact .inr (List.mem_append_left _ (List.mem_append_left _ g))
        · obtain ⟨r, g1, g2, g3, g4⟩ := mem_strings hy
          exact ⟨c.model, r, g3.symm, g4.symm, g2, .inr (List.mem_append_left _ (List.mem_append_right _ (List.mem_map.2 ⟨r, g1, rfl⟩)))⟩
      · intro p hp
        obtain ⟨hp, hk⟩ := List.mem_filter.1 hp
        simp only [ne_eq, decide_not, Bool.not_eq_true', decide_eq_false_iff_not] at hk
        obtain ⟨g1, g2, g3⟩ := h.pen p hp
        refine ⟨?_, g2, g3.mono hmono⟩
        unfold lookup at g1 ⊢
        rw [List.find?_append, g1]
        simp only [List.find?_cons, List.find?_nil, Option.none_or]
        rw [show decide (c.model.regKey = p.1) = false by simpa using fun e => hk e.symm]
      · exact h.ord.filter _
      · intro o ho
        rcases List.mem_append.1 ho with ho | ho
        · rcases List.mem_append.1 ho with ho | ho
          · obtain ⟨p, hp, rfl⟩ := List.mem_map.1 ho
            obtain ⟨hp, hk⟩ := List.mem_filter.1 hp
            simp only [decide_eq_true_eq] at hk
            obtain ⟨_, g2, g3⟩ := h.pen p hp
            exact ⟨g3.mono hmono, .inr (g2 ▸ hk)⟩
          · obtain ⟨r, hr, rfl⟩ := List.mem_map.1 ho
            exact ⟨.relation c r (by simp) hr, .inl rfl⟩
        · obtain ⟨n, f, j, spec, s, g1, g2, g3, g4⟩ := mem_waitingAll ho
          rw [g4]
          exact ⟨.dep c n j spec s (by simp) ⟨f, g1, g2⟩ g3, .inl rfl⟩
      · rw [List.pairwise_append, List.pairwise_append]
        refine ⟨⟨?_, ?_, ?_⟩, ?_, ?_⟩
        · rw [List.pairwise_map]
          have g := h.ord.filter (fun p => decide (p.1 = c.model.regKey))
          refine g.imp_of_mem ?_
          intro a b ha hb hab
          have ha' := List.mem_filter.1 ha
          have hb' := List.mem_filter.1 hb
          simp only [decide_eq_true_eq] at ha' hb'
          exact ⟨hab (by rw [ha'.2, hb'.2]), fun n j spec m r g1 => absurd rfl (hpd a ha'.1 _ _ _ _ g1)⟩
        · rw [List.pairwise_map]
          refine List.pairwise_of_forall fun a b => ⟨?_, ?_⟩
          · intro this n j spec m r g1
            cases g1
          · intro n j spec m r g1
            cases g1
        · intro a ha b hb
          obtain ⟨p, hp, rfl⟩ := List.mem_map.1 ha
          obtain ⟨hp, _⟩ := List.mem_filter.1 hp
          obtain ⟨r, _, rfl⟩ := List.mem_map.1 hb
          refine ⟨?_, fun n j spec m r g1 => absurd rfl (hpd p hp _ _ _ _ g1)⟩
          intro this n j spec m r' g1 g2
          simp only [LazyOp.relation.injEq] at g2
          rw [← g2.1]
          exact (hpd p hp _ _ _ _ g1).symm
        · refine List.Pairwise.imp_of_mem (R := fun _ _ => True) ?_ (List.pairwise_of_forall fun _ _ => trivial)
          intro a b _ hb _
          obtain ⟨n, f, j, spec, s, _, _, _, g4⟩ := mem_waitingAll hb
          rw [g4]
          exact ⟨fun _ _ _ _ _ _ _ g => (by cases g), fun _ _ _ _ _ _ => by simp⟩
        · intro a _ b hb
          obtain ⟨n, f, j, spec, s, _, _, _, g4⟩ := mem_waitingAll hb
          rw [g4]
          exact ⟨fun _ _ _ _ _ _ _ g => (by cases g), fun _ _ _ _ _ _ => by simp⟩
      · intro p hp b hb hk
        obtain ⟨hp, hk'⟩ := List.mem_filter.1 hp
        simp only [ne_eq, decide_not, Bool.not_eq_true', decide_eq_false_iff_not] at hk'
        rcases List.mem_append.1 hb with hb | hb
        · rcases List.mem_append.1 hb with hb | hb
          · obtain ⟨q, hq, rfl⟩ := List.mem_map.1 hb
            obtain ⟨hq, hk2⟩ := List.mem_filter.1 hq
            simp only [decide_eq_true_eq] at hk2
            obtain ⟨_, g2, _⟩ := h.pen q hq
            exact absurd (hk.trans (g2 ▸ hk2)) hk'
          · obtain ⟨r, _, rfl⟩ := List.mem_map.1 hb
            intro this n j spec m r' g1 g2
            simp only [LazyOp.relation.injEq] at g2
            rw [← g2.1]
            exact (hpd p hp _ _ _ _ g1).symm
        · obtain ⟨n, f, j, spec, s, _, _, _, g4⟩ := mem_waitingAll hb
          rw [g4]
          exact fun _ _ _ _ _ _ _ g => by cases g
      · intro e he
        rcases List.mem_append.1 he with he | he
        · exact (h.ent e he).grow hgrow
        · have := e2 e he
          rwa [← hregs] at this
      · intro d hd n j spec hD
        rcases List.mem_append.1 hd with hd | hd
        · rcases h.every d hd n j spec hD with ⟨d', g⟩ | ⟨s, g1, g2⟩
          · exact .inl ⟨d', List.mem_append_left _ g⟩
          · refine .inr ⟨s, g1, ?_⟩
            rcases hsplit _ (g2.resolve_right (by simp)) with g | g
            · exact .inl g
            · exact .inr (List.mem_append_left _ (List.mem_append_left _ g))
        · rw [List.mem_singleton.1 hd] at hD ⊢
          obtain ⟨f, g1, g2⟩ := hD
          rcases e3 n f j spec g1 g2 with ⟨d', g⟩ | ⟨s, g⟩
          · exact .inl ⟨d', List.mem_append_right _ g⟩
          · exact .inr ⟨s, g, .inr (List.mem_append_right _ (waitingAll_mem g g2 g1))⟩
      · intro d hd r hr
        rcases List.mem_append.1 hd with hd | hd
        · rcases h.acc d hd r hr with g | g | ⟨t, g1, g2⟩
          · rcases hsplit _ g with g | g
            · exact .inl g
            · exact .inr (.inl (List.mem_append_left _ (List.mem_append_left _ g)))
          · simp at g
          · exact .inr (.inr ⟨t, hup _ _ g1, g2⟩)
        · rw [List.mem_singleton.1 hd] at hr ⊢
          exact .inr (.inl (List.mem_append_left _ (List.mem_append_right _ (List.mem_map.2 ⟨r, hr, rfl⟩))))
      · intro z hz
        obtain ⟨d, hd, r, hr, g1, g2⟩ := h.accs z hz
        exact ⟨d, hmono d hd, r, hr, hup _ _ g1, g2⟩
    have hfin := requestAll_inv (hf.mono hsub) (T := c.model) (fun d hd hne n j spec s hD hs hk d' hd' he => by
      have hdd : d ∈ done := (List.mem_append.1 hd).resolve_right fun g => hne (by rw [List.mem_singleton.1 g])
      have : d' = c := hf.keys d' (hsub d' hd') c hc (by rw [he])
      rw [this]
      exact hlate d hdd n j spec s hD hs hk) ⟨c, by simp, rfl⟩ _ _ hI
    split at hfin
    · next L' hL' =>
      exact ⟨hfin.1, hfin.2.trans hA'⟩
    · exact hfin
  · next e he =>
    simp only [he]
    exact h2

end Loading
end Denorm
