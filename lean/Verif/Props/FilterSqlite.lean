import Verif.Code.Deconstruct
/-!
# C11 on sqlite: `filter=` is refused
-/
namespace Denorm

theorem get?_del_ne {kw : Kwargs} {k k' : String} (h : k' ≠ k) : (kw.del k').get? k = kw.get? k := by
  induction kw with
  | nil => rfl
  | cons p kw ih =>
    unfold Kwargs.del at ih ⊢
    rw [List.filter_cons]
    by_cases hp : p.1 = k'
    · simp only [hp, ne_eq, not_true, decide_false, Bool.false_eq_true, if_false, ih, Kwargs.get?, h]
    · simp only [hp, ne_eq, not_false_eq_true, decide_true, if_true, Kwargs.get?, ih]

theorem init_refused (kind : AggKind) (manager field : ArgVal) (kw : Kwargs) (f : ArgVal) (h : kw.get? "filter" = some f) (ht : f.truthy = true) :
    AggregateField.init true kind manager field kw =
      .error ⟨.named "NotImplementedError", "filters for aggregate fields are currently not supported for sqlite"⟩ := by
  have e : (kw.del "skip").pop "filter" (.dict []) = f := by
    unfold Kwargs.pop
    rw [get?_del_ne (by decide), h]
    rfl
  unfold AggregateField.init
  simp only [e, ht, Bool.and_true, if_true]
  rfl

theorem bindArg_filter {pos : Option ArgVal} {kw kw' : Kwargs} {k : String} {v : ArgVal} (hk : k ≠ "filter") (h : bindArg pos kw k = .ok (v, kw')) :
    kw'.get? "filter" = kw.get? "filter" := by
  unfold bindArg at h
  split at h <;> simp only [Except.ok.injEq, Prod.mk.injEq, reduceCtorEq] at h
  · rw [← h.2]
  · rw [← h.2, get?_del_ne hk]
  · rw [← h.2]

/-- C11. With sqlite as the default database a CountField or SumField with a non-empty `filter=` cannot be declared: the constructor raises, whatever the other
arguments are. So there are no wrong counts, but no filtered counts either. -/
theorem C11_sqlite_refused (kind : AggKind) (args : List ArgVal) (kw : Kwargs) (f : ArgVal) (h : kw.get? "filter" = some f) (ht : f.truthy = true) :
    ∃ e, aggregateClass true kind args kw = .error e := by
  have fin : ∀ (m fd : ArgVal) (kw' : Kwargs), kw'.get? "filter" = kw.get? "filter" →
      ∃ e, AggregateField.init true kind m fd (kw'.set "editable" (.bool false)) = .error e := by
    intro m fd kw' hk
    refine ⟨_, init_refused kind m fd _ f ?_ ht⟩
    unfold Kwargs.set
    rw [Kwargs.get?, if_neg (by decide), get?_del_ne (by decide), hk, h]
  cases kind with
  | count =>
    show ∃ e, countField true args kw = .error e
    unfold countField
    by_cases hl : args.length > 1 <;> simp only [hl, if_true, if_false]
    · exact ⟨_, rfl⟩
    · cases h1 : bindArg args[0]? kw "manager_name" with
      | error e => exact ⟨e, rfl⟩
      | ok p => exact fin p.1 .none p.2 (bindArg_filter (by decide) h1)
  | sum =>
    show ∃ e, sumField true args kw = .error e
    unfold sumField
    by_cases hl : args.length > 2 <;> simp only [hl, if_true, if_false]
    · exact ⟨_, rfl⟩
    · cases h1 : bindArg args[0]? kw "manager_name" with
      | error e => exact ⟨e, rfl⟩
      | ok p =>
        cases h2 : bindArg args[1]? p.2 "field" with
        | error e => exact ⟨e, by simp only [bind, Except.bind, h2, pure, Except.pure]⟩
        | ok q =>
          obtain ⟨e, he⟩ := fin p.1 q.1 q.2 ((bindArg_filter (by decide) h2).trans (bindArg_filter (by decide) h1))
          exact ⟨e, by simp only [bind, Except.bind, h2, pure, Except.pure]; exact he⟩

/-- On the other databases, and on sqlite with `exclude=`, the same arguments are accepted. -/
example : (∃ a, aggregateClass false .count [.str "post_set"] [("filter", .dict [("active", "True")])] = .ok a) ∧
    (∃ a, aggregateClass true .count [.str "post_set"] [("exclude", .dict [("active", "True")])] = .ok a) ∧
    ∃ e, aggregateClass true .sum [.str "post_set", .str "score"] [("skip", .list []), ("filter", .dict [("active", "True")])] = .error e :=
  ⟨⟨_, rfl⟩, ⟨_, rfl⟩, C11_sqlite_refused _ _ _ _ rfl rfl⟩

end Denorm
