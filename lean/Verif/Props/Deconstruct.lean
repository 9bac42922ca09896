import Verif.Lemmas.Deconstruct
/-!
# Migrations can reconstruct the fields (C41)
-/
namespace Denorm

/-- C41, callback fields. `deconstruct()` names the field class that was given to `@denormalized` and arguments from which this class makes the very field that
it makes of the arguments of the decorator (not editable, and without `skip`, which is not for it). For every field class that can deconstruct
its own fields. -/
theorem C41_denormalized (F : FieldClass) {func : ArgVal} {args : List ArgVal} {kw : Kwargs} {f : DenormDBField F}
    (h : DenormDBField.init F func args kw = .ok f) :
    ∃ d, f.deconstruct = .ok d ∧ d.path = F.path ∧ F.init d.args d.kwargs = .ok f.base ∧
      F.init args ((kw.del "skip").set "editable" (.bool false)) = .ok f.base := by
  unfold DenormDBField.init at h
  cases hb : F.init args ((kw.del "skip").set "editable" (.bool false)) with
  | error e => simp only [hb] at h; cases h
  | ok b =>
    simp only [hb] at h
    cases h
    have := F.roundTrip hb
    exact ⟨⟨F.path, (F.deconstruct b).1, (F.deconstruct b).2⟩, by simp only [DenormDBField.deconstruct, this]; rfl, rfl, this, rfl⟩

/-- Django's plain fields are such classes. -/
def plainClass (path : String) : FieldClass where
  path := path
  Field := Attrs
  init := plainInit
  deconstruct a := ([], plainDeconstruct a)
  roundTrip := plain_roundTrip

/-- A denormalized text field with a skip list and `null=True`. -/
example : ∃ f, DenormDBField.init (plainClass "django.db.models.TextField") (.obj 0) []
    [("null", .bool true), ("skip", .list ["title"])] = .ok f ∧ f.base "null" = .bool true ∧ f.base "editable" = .bool false :=
  ⟨_, rfl, by decide, by decide⟩

/-- C41, aggregates: whatever arguments a CountField or SumField was made of, `deconstruct()` succeeds, and from its arguments the same class makes, on every
database, a field with the same column (every option has the same value) and the same manager, and this field deconstructs to the same arguments, so
that no further migration is generated. What is missing: the rest of the declaration, see `C41_violated`. -/
theorem C41_aggregate_partial {sqlite sqlite' : Bool} {kind : AggKind} {args : List ArgVal} {kw : Kwargs} {f : AggregateField}
    (h : aggregateClass sqlite kind args kw = .ok f) :
    ∃ d f', f.deconstruct = .ok d ∧
      d.path = (match kind with | .count => "denorm.fields.CountField" | .sum => "denorm.fields.SumField") ∧
      aggregateClass sqlite' kind d.args d.kwargs = .ok f' ∧
      f'.attrs = f.attrs ∧ f'.manager = f.manager ∧ f'.deconstruct = .ok d := by
  obtain ⟨m, fl, kw', hi⟩ := aggregate_of_class h
  obtain ⟨hp, he, hd, hk⟩ := init_proper hi
  subst hk
  have hr := aggregate_rebuild hp he hd sqlite'
  exact ⟨_, _, aggregate_decon hp he, by cases f.kind <;> rfl, hr, rfl, rfl, aggregate_decon (f := { f with filter := .dict [], exclude := .dict [], skip := .none, field := .none }) hp he⟩

/-- C41: if no filter, exclude, skip or summed field was given, it is the same declaration too. -/
theorem C41_declaration_partial {sqlite sqlite' : Bool} {kind : AggKind} {args : List ArgVal} {kw : Kwargs} {f : AggregateField} {d : Deconstructed}
    (h : aggregateClass sqlite kind args kw = .ok f) (hd : f.deconstruct = .ok d)
    (h1 : f.filter = .dict []) (h2 : f.exclude = .dict []) (h3 : f.skip = .none) (h4 : f.field = .none) :
    aggregateClass sqlite' kind d.args d.kwargs = .ok f := by
  obtain ⟨m, fl, kw', hi⟩ := aggregate_of_class h
  obtain ⟨hp, he, hdef, hk⟩ := init_proper hi
  subst hk
  rw [aggregate_decon hp he] at hd
  cases hd
  rw [aggregate_rebuild hp he hdef]
  obtain ⟨kind, manager, filter, exclude, skip, field, attrs⟩ := f
  simp only at h1 h2 h3 h4
  rw [h1, h2, h3, h4]

/-- C41 is violated: the field that a migration makes never has a filter, an exclude, a skip list or a summed field. -/
theorem C41_violated {sqlite sqlite' : Bool} {kind : AggKind} {args : List ArgVal} {kw : Kwargs} {f f' : AggregateField} {d : Deconstructed}
    (h : aggregateClass sqlite kind args kw = .ok f) (hd : f.deconstruct = .ok d) (hf : aggregateClass sqlite' kind d.args d.kwargs = .ok f') :
    f'.filter = .dict [] ∧ f'.exclude = .dict [] ∧ f'.skip = .none ∧ f'.field = .none := by
  obtain ⟨m, fl, kw', hi⟩ := aggregate_of_class h
  obtain ⟨hp, he, hdef, hk⟩ := init_proper hi
  subst hk
  rw [aggregate_decon hp he] at hd
  cases hd
  rw [aggregate_rebuild hp he hdef] at hf
  cases hf
  exact ⟨rfl, rfl, rfl, rfl⟩

/-- `SumField('item_set', field='price', exclude={'active__exact': False}, null=True)` -/
example : ∃ f, aggregateClass false .sum [.str "item_set"] [("field", .str "price"), ("exclude", .dict [("active__exact", "False")]), ("null", .bool true)] = .ok f ∧
    f.field = .str "price" ∧ f.exclude = .dict [("active__exact", "False")] ∧ f.attrs "null" = .bool true :=
  ⟨_, rfl, rfl, rfl, by decide⟩

/-- C41, cache keys: `deconstruct()` gives arguments from which CacheKeyField makes the same column. -/
theorem C41_cachekey {kw : Kwargs} {a : Attrs} (h : cacheKeyField [] kw = .ok a) :
    (cacheKeyDeconstruct a).path = "denorm.fields.CacheKeyField" ∧
    cacheKeyField (cacheKeyDeconstruct a).args (cacheKeyDeconstruct a).kwargs = .ok a := by
  have h' : plainInit [] ((kw.set "default" (.int 0)).set "editable" (.bool false)) = .ok a := h
  obtain ⟨hk, ha⟩ := plainInit_nil h'
  have he : a "editable" = .bool false := by simp [ha, get?_set]
  have hd : a "default" = .int 0 := by simp [ha, get?_set]
  refine ⟨rfl, ?_⟩
  show plainInit [] (((plainDeconstruct a).set "default" (.int 0)).set "editable" (.bool false)) = .ok a
  rw [plainInit_known (known_set (known_set (known_plain a) (by decide) _) (by decide) _)]
  refine congrArg Except.ok (funext fun o => ?_)
  rw [get?_set, get?_set]
  by_cases h1 : o = "editable"
  · simp [h1, he]
  · by_cases h2 : o = "default"
    · simp [h2, hd]
    · simp only [h1, h2, if_false]
      exact plain_getD (plainInit_ok h') o

/-- C41, `@cached` fields: the same. -/
theorem C41_cached {func cache : ArgVal} {kw : Kwargs} {a : Attrs} (h : cachedField [func, cache] kw = .ok a) :
    (cachedDeconstruct a).path = "denorm.fields.CachedField" ∧
    cachedField (cachedDeconstruct a).args (cachedDeconstruct a).kwargs = .ok a := by
  refine ⟨rfl, ?_⟩
  have hk : cacheKeyField [] kw = .ok a := by
    unfold cachedField bindArg at h
    simp only [List.getElem?_cons_zero, List.getElem?_cons_succ] at h
    cases h1 : kw.get? "func" with
    | some v => simp only [h1] at h; cases h
    | none =>
      cases h2 : kw.get? "cache" with
      | some v => simp only [h1, bind, Except.bind, h2] at h; cases h
      | none => simp only [h1, bind, Except.bind, h2] at h; exact h
  have := (C41_cachekey hk).2
  have hf : (plainDeconstruct a).get? "func" = none := by rw [get?_plain]; rfl
  have hc : (plainDeconstruct a).get? "cache" = none := by rw [get?_plain]; rfl
  show cachedField [] (plainDeconstruct a) = .ok a
  simp only [cachedField, bindArg, List.getElem?_nil, hf, bind, Except.bind, hc]
  exact this

example : ∃ a, cacheKeyField [] [("null", .bool true), ("default", .int 7)] = .ok a ∧ a "default" = .int 0 ∧ a "null" = .bool true :=
  ⟨_, rfl, by decide, by decide⟩

end Denorm
