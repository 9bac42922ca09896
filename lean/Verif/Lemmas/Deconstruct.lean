import Verif.Code.Deconstruct
namespace Denorm

theorem get?_del (kw : Kwargs) (k o : String) : (kw.del k).get? o = if o = k then none else kw.get? o := by
  induction kw with
  | nil => simp [Kwargs.del, Kwargs.get?]
  | cons p kw ih =>
    obtain ⟨k', v⟩ := p
    unfold Kwargs.del at ih ⊢
    by_cases hk : k' = k
    · subst hk
      simp only [ne_eq, decide_not, List.filter_cons, decide_true, Bool.not_true, Bool.false_eq_true, if_false, Kwargs.get?]
      simp only [ne_eq, decide_not] at ih
      rw [ih]
      by_cases h : o = k'
      · simp [h]
      · rw [if_neg h, if_neg h, if_neg (fun e => h e.symm)]
    · simp only [ne_eq, decide_not, List.filter_cons, hk, decide_false, Bool.not_false, if_true, Kwargs.get?]
      simp only [ne_eq, decide_not] at ih
      rw [ih]
      by_cases h : k' = o
      · subst h; simp [hk]
      · simp [h]

theorem get?_set (kw : Kwargs) (k o : String) (v : ArgVal) : (kw.set k v).get? o = if o = k then some v else kw.get? o := by
  show (if k = o then some v else (kw.del k).get? o) = _
  rw [get?_del]
  by_cases h : o = k
  · simp [h]
  · rw [if_neg (fun e => h e.symm), if_neg h, if_neg h]

theorem get?_none_of {kw : Kwargs} {k : String} (h : ∀ p ∈ kw, p.1 ≠ k) : kw.get? k = none := by
  induction kw with
  | nil => rfl
  | cons p kw ih =>
    unfold Kwargs.get?
    rw [if_neg (h p List.mem_cons_self)]
    exact ih fun q hq => h q (List.mem_cons_of_mem _ hq)

theorem get?_mem {kw : Kwargs} {k : String} {v : ArgVal} (h : kw.get? k = some v) : (k, v) ∈ kw := by
  induction kw with
  | nil => cases h
  | cons p kw ih =>
    unfold Kwargs.get? at h
    split at h
    · next hk => cases h; rw [← hk]; exact List.mem_cons_self
    · exact List.mem_cons_of_mem _ (ih h)

/-- The deconstructed options: those of a table whose keys are distinct. -/
theorem get?_decon (a : Attrs) (o : String) : ∀ (t : Kwargs), (t.map (·.1)).Nodup →
    Kwargs.get? (t.filterMap fun p => if a p.1 = p.2 then none else some (p.1, a p.1)) o =
      match t.get? o with
      | none => none
      | some d => if a o = d then none else some (a o)
  | [], _ => rfl
  | (k, d) :: t, h => by
    have h' := List.nodup_cons.1 h
    have ih := get?_decon a o t h'.2
    rw [List.filterMap_cons]
    by_cases hk : k = o
    · subst hk
      simp only [Kwargs.get?, if_true]
      by_cases had : a k = d
      · simp only [had, if_true]
        refine get?_none_of fun p hp => ?_
        obtain ⟨q, hq, he⟩ := List.mem_filterMap.1 hp
        split at he
        · cases he
        · cases he
          intro e
          exact h'.1 (List.mem_map.2 ⟨q, hq, e⟩)
      · simp only [had, if_false, Kwargs.get?, if_true]
    · simp only [Kwargs.get?, hk, if_false]
      by_cases had : a k = d
      · simp only [had, if_true]; exact ih
      · simp only [had, if_false, Kwargs.get?, hk]; exact ih

theorem options_nodup : (fieldOptions.map (·.1)).Nodup := by decide

/-- Attributes that options can have: nothing under an unknown name. -/
def Attrs.Proper (a : Attrs) : Prop := ∀ o, fieldOptions.get? o = none → a o = .none

theorem get?_plain (a : Attrs) (o : String) : (plainDeconstruct a).get? o =
    match fieldOptions.get? o with
    | none => none
    | some d => if a o = d then none else some (a o) := get?_decon a o _ options_nodup

theorem plain_getD {a : Attrs} (ha : a.Proper) (o : String) : ((plainDeconstruct a).get? o).getD (optionDefault o) = a o := by
  rw [get?_plain]
  unfold optionDefault
  cases h : fieldOptions.get? o with
  | none => simp [ha o h]
  | some d =>
    simp only
    split
    · next e => simp [e]
    · simp

/-- Keyword arguments that are all options. -/
def Kwargs.Known (kw : Kwargs) : Prop := ∀ p ∈ kw, (fieldOptions.get? p.1).isSome

theorem known_set {kw : Kwargs} (h : kw.Known) {k : String} (hk : (fieldOptions.get? k).isSome) (v : ArgVal) : (kw.set k v).Known := by
  intro p hp
  rcases List.mem_cons.1 hp with rfl | hp
  · exact hk
  · exact h p (List.mem_filter.1 hp).1

theorem known_del {kw : Kwargs} (h : kw.Known) (k : String) : (kw.del k).Known := fun p hp => h p (List.mem_filter.1 hp).1

theorem known_plain (a : Attrs) : (plainDeconstruct a).Known := by
  intro p hp
  obtain ⟨q, hq, he⟩ := List.mem_filterMap.1 hp
  have hall : ∀ q ∈ fieldOptions, (fieldOptions.get? q.1).isSome := by decide
  split at he
  · cases he
  · cases he; exact hall q hq

theorem plainInit_known {kw : Kwargs} (h : kw.Known) : plainInit [] kw = .ok fun o => (kw.get? o).getD (optionDefault o) := by
  unfold plainInit
  have : kw.find? (fun p => (fieldOptions.get? p.1).isNone) = none := by
    rw [List.find?_eq_none]
    intro p hp
    have := h p hp
    simpa [Option.isSome_iff_ne_none] using this
  rw [this]

theorem known_of_find {kw : Kwargs} (h : kw.find? (fun p => (fieldOptions.get? p.1).isNone) = none) : kw.Known := by
  rw [List.find?_eq_none] at h
  intro p hp
  have := h p hp
  simpa [Option.isSome_iff_ne_none] using this

theorem proper_of_known {kw : Kwargs} (h : kw.Known) : Attrs.Proper fun o => (kw.get? o).getD (optionDefault o) := by
  intro o ho
  have : kw.get? o = none := by
    cases hg : kw.get? o with
    | none => rfl
    | some v =>
      have := h _ (get?_mem hg)
      simp [ho] at this
  simp [this, optionDefault, ho]

/-- What is in a field that `Field.__init__` has made. -/
theorem plainInit_ok {args : List ArgVal} {kw : Kwargs} {a : Attrs} (h : plainInit args kw = .ok a) : a.Proper := by
  unfold plainInit at h
  split at h
  · cases h
  · next hk =>
    have hk := known_of_find hk
    split at h
    · cases h; exact proper_of_known hk
    · split at h
      · cases h
      · cases h; exact proper_of_known (known_set hk (by decide) _)
    · cases h

theorem plainInit_nil {kw : Kwargs} {a : Attrs} (h : plainInit [] kw = .ok a) : kw.Known ∧ a = fun o => (kw.get? o).getD (optionDefault o) := by
  have h0 := h
  unfold plainInit at h
  split at h
  · cases h
  · next hk => exact ⟨known_of_find hk, by cases h; rfl⟩

theorem plain_roundTrip {args : List ArgVal} {kw : Kwargs} {a : Attrs} (h : plainInit args kw = .ok a) : plainInit [] (plainDeconstruct a) = .ok a := by
  rw [plainInit_known (known_plain a)]
  exact congrArg Except.ok (funext (plain_getD (plainInit_ok h)))

/-- The arguments of an aggregate field have been taken: what is left in its attributes. -/
theorem aggregate_attrs {sqlite : Bool} {kind : AggKind} {manager field : ArgVal} {kw : Kwargs} {f : AggregateField}
    (h : AggregateField.init sqlite kind manager field kw = .ok f) :
    ((((kw.del "skip").del "filter").del "exclude").set "default" (.int 0)).Known ∧
    f = { kind, manager, field, filter := kw.pop "filter" (.dict []), exclude := kw.pop "exclude" (.dict []), skip := kw.pop "skip" .none,
          attrs := fun o => if o = "editable" then .bool false else if o = "default" then .int 0 else
            ((((kw.del "skip").del "filter").del "exclude").get? o).getD (optionDefault o) } := by
  have hfil : (kw.del "skip").pop "filter" (.dict []) = kw.pop "filter" (.dict []) := by simp [Kwargs.pop, get?_del]
  have hexc : ((kw.del "skip").del "filter").pop "exclude" (.dict []) = kw.pop "exclude" (.dict []) := by simp [Kwargs.pop, get?_del]
  unfold AggregateField.init at h
  simp only [hfil, hexc] at h
  by_cases hf : ((kw.pop "filter" (.dict [])).truthy && sqlite) = true
  · rw [if_pos hf] at h; cases h
  · rw [if_neg hf] at h
    cases hp : plainInit [] ((((((kw.del "skip").del "filter").del "exclude").set "default" (.int 0))).set "editable" (.bool false)) with
    | error e => simp only [hp] at h; cases h
    | ok a =>
      simp only [hp] at h
      cases h
      obtain ⟨hk, rfl⟩ := plainInit_nil hp
      refine ⟨?_, ?_⟩
      · intro p hp
        by_cases he : p.1 = "editable"
        · rw [he]; decide
        · exact hk p (List.mem_cons_of_mem _ (List.mem_filter.2 ⟨hp, by simpa using he⟩))
      · congr 1
        funext o
        rw [get?_set, get?_set]
        by_cases h1 : o = "editable"
        · simp [h1]
        · by_cases h2 : o = "default" <;> simp [h1, h2]

/-- The arguments that a migration gets. -/
theorem aggregate_decon {f : AggregateField} (hp : f.attrs.Proper) (he : f.attrs "editable" = .bool false) :
    f.deconstruct = .ok { path := f.kind.path, args := [f.manager], kwargs := (plainDeconstruct f.attrs).del "editable" } := by
  have : (plainDeconstruct f.attrs).get? "editable" = some (.bool false) := by
    rw [get?_plain]
    have : fieldOptions.get? "editable" = some (.bool true) := by decide
    simp [this, he]
  simp only [AggregateField.deconstruct, this]

/-- What a migration makes of them. -/
theorem aggregate_rebuild {f : AggregateField} (hp : f.attrs.Proper) (he : f.attrs "editable" = .bool false) (hd : f.attrs "default" = .int 0)
    (sqlite : Bool) : aggregateClass sqlite f.kind [f.manager] ((plainDeconstruct f.attrs).del "editable") =
      .ok { f with filter := .dict [], exclude := .dict [], skip := .none, field := .none } := by
  have hnone : ∀ k, fieldOptions.get? k = none → (plainDeconstruct f.attrs).get? k = none := fun k hk => by rw [get?_plain, hk]
  have hget : ∀ k, fieldOptions.get? k = none → Kwargs.get? (((plainDeconstruct f.attrs).del "editable").set "editable" (.bool false)) k = none := by
    intro k hk
    rw [get?_set, get?_del, if_neg (fun e => by subst e; revert hk; decide), if_neg (fun e => by subst e; revert hk; decide)]
    exact hnone k hk
  have hm : ∀ k, fieldOptions.get? k = none → Kwargs.get? ((plainDeconstruct f.attrs).del "editable") k = none := by
    intro k hk
    rw [get?_del, if_neg (fun e => by subst e; revert hk; decide)]
    exact hnone k hk
  have key : ∀ kind, AggregateField.init sqlite kind f.manager .none (((plainDeconstruct f.attrs).del "editable").set "editable" (.bool false)) =
      .ok { kind, manager := f.manager, filter := .dict [], exclude := .dict [], skip := .none, field := .none, attrs := f.attrs } := by
    intro kind
    generalize hkw : ((plainDeconstruct f.attrs).del "editable").set "editable" (.bool false) = kw at *
    have hfil : (kw.del "skip").pop "filter" (.dict []) = .dict [] := by simp [Kwargs.pop, get?_del, hget "filter" (by decide)]
    have hexc : ((kw.del "skip").del "filter").pop "exclude" (.dict []) = .dict [] := by
      simp [Kwargs.pop, get?_del, hget "exclude" (by decide)]
    have hskip : kw.pop "skip" .none = .none := by simp [Kwargs.pop, hget "skip" (by decide)]
    have hknown : kw.Known := by
      rw [← hkw]
      exact known_set (known_del (known_plain _) _) (by decide) _
    unfold AggregateField.init
    simp only [hfil, hexc, hskip]
    rw [if_neg (by simp [ArgVal.truthy]),
      plainInit_known (known_set (known_set (known_del (known_del (known_del hknown _) _) _) (by decide) _) (by decide) _)]
    have : (fun o => (Kwargs.get? (Kwargs.set (Kwargs.set (((kw.del "skip").del "filter").del "exclude") "default" (.int 0)) "editable" (.bool false)) o).getD
        (optionDefault o)) = f.attrs := by
      funext o
      rw [get?_set, get?_set]
      by_cases h1 : o = "editable"
      · simp [h1, he]
      · by_cases h2 : o = "default"
        · simp [h2, hd]
        · simp only [h1, h2, if_false, get?_del]
          have hopt : ∀ k, fieldOptions.get? k = none → o = k → f.attrs o = ArgVal.none ∧ optionDefault o = ArgVal.none := by
            rintro k hk rfl
            exact ⟨hp _ hk, by simp [optionDefault, hk]⟩
          have hdef := plain_getD hp o
          by_cases h3 : o = "exclude"
          · have := hopt _ (by decide) h3; simp [h3] at this ⊢; simp [this]
          by_cases h4 : o = "filter"
          · have := hopt _ (by decide) h4; simp [h4] at this ⊢; simp [this]
          by_cases h5 : o = "skip"
          · have := hopt _ (by decide) h5; simp [h5] at this ⊢; simp [this]
          simp only [h3, h4, h5, if_false]
          rw [← hkw, get?_set, get?_del, if_neg h1, if_neg h1]
          exact hdef
    rw [this]
    rfl
  obtain ⟨kind, manager, filter, exclude, skip, field, attrs⟩ := f
  cases kind with
  | count =>
    simp only [aggregateClass, countField, bindArg, List.getElem?_cons_zero, hm "manager_name" (by decide)]
    exact key .count
  | sum =>
    have e1 : bindArg [manager][0]? ((plainDeconstruct attrs).del "editable") "manager_name" = .ok (manager, (plainDeconstruct attrs).del "editable") := by
      simp only [bindArg, List.getElem?_cons_zero, hm "manager_name" (by decide)]
    have e2 : bindArg [manager][1]? ((plainDeconstruct attrs).del "editable") "field" = .ok (.none, (plainDeconstruct attrs).del "editable") := by
      simp only [bindArg, List.getElem?_cons_succ, List.getElem?_nil, hm "field" (by decide)]
    simp only [aggregateClass, sumField, e1, bind, Except.bind, e2]
    exact key .sum

theorem aggregate_of_class {sqlite : Bool} {kind : AggKind} {args : List ArgVal} {kw : Kwargs} {f : AggregateField}
    (h : aggregateClass sqlite kind args kw = .ok f) : ∃ manager field kw', AggregateField.init sqlite kind manager field kw' = .ok f := by
  cases kind with
  | count =>
    simp only [aggregateClass, countField] at h
    split at h
    · cases h
    · cases hb : bindArg args[0]? kw "manager_name" with
      | error e => rw [hb] at h; cases h
      | ok p => rw [hb] at h; exact ⟨_, _, _, h⟩
  | sum =>
    simp only [aggregateClass, sumField] at h
    split at h
    · cases h
    · cases hb : bindArg args[0]? kw "manager_name" with
      | error e => rw [hb] at h; cases h
      | ok p =>
        rw [hb] at h
        cases hb2 : bindArg args[1]? p.2 "field" with
        | error e =>
          have h' : (Except.error e >>= fun (_ : ArgVal × Kwargs) => (Except.error e : Except Exc AggregateField)) = .ok f := by
            simp only [bind, Except.bind, hb2] at h ⊢
            cases h
          cases h'
        | ok q =>
          simp only [bind, Except.bind, hb2] at h
          exact ⟨_, _, _, h⟩

theorem init_proper {sqlite : Bool} {kind : AggKind} {manager field : ArgVal} {kw : Kwargs} {f : AggregateField}
    (h : AggregateField.init sqlite kind manager field kw = .ok f) :
    f.attrs.Proper ∧ f.attrs "editable" = .bool false ∧ f.attrs "default" = .int 0 ∧ f.kind = kind := by
  obtain ⟨hk, rfl⟩ := aggregate_attrs h
  refine ⟨?_, by simp, by simp, rfl⟩
  intro o ho
  have h1 : o ≠ "editable" := fun e => by subst e; revert ho; decide
  have h2 : o ≠ "default" := fun e => by subst e; revert ho; decide
  have := proper_of_known hk o ho
  simp only [h1, h2, if_false]
  simp only at this
  rw [get?_set, if_neg h2] at this
  exact this

end Denorm
