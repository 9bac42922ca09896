import Verif.Spec.JoinFilter
import Verif.Lemmas.AggRuns
import Verif.Lemmas.Columns
/-!
# Lookups that follow relations
-/
namespace Denorm

theorem trim_key : ∀ {hs : List Hop} {c : Col}, KeyOnly hs c → trimJoins hs c = ([], ownColumn hs c)
  | [], _, _ => rfl
  | h :: hs, c, hk => by
    have h2 := hk.2
    simp only [trimJoins, trim_key hk.1]
    rw [if_pos h2]
    rfl

theorem trim_not : ∀ {hs : List Hop} {c : Col}, ¬ KeyOnly hs c → (trimJoins hs c).1 ≠ []
  | [], _, h => absurd trivial h
  | h :: hs, c, hk => by
    by_cases h1 : KeyOnly hs c
    · have h2 : ¬ ownColumn hs c = h.pk := fun e => hk ⟨h1, e⟩
      simp [trimJoins, trim_key h1, h2]
    · have := trim_not h1
      simp only [trimJoins]
      split
      · rename_i c' e; rw [e] at this; simp at this
      · simp

theorem trim_length : ∀ (hs : List Hop) (c : Col), (trimJoins hs c).1.length ≤ hs.length
  | [], _ => Nat.le_refl _
  | h :: hs, c => by
    have := trim_length hs c
    simp only [trimJoins]
    split
    · split <;> simp
    · rename_i e; rw [e] at this; simpa using this

theorem setup_length : ∀ (hs : List Hop) (m : List JoinRec) (p : String), (setupJoins m p hs).2.length = hs.length
  | [], _, _ => rfl
  | h :: hs, m, p => by simp [setupJoins, setup_length hs]

/-- Lookups for keys give conditions on the row itself. -/
theorem compile_key {p : PathCond} (hk : KeyOnly p.hops p.cond.col) (start : String) (m : List JoinRec) :
    (p.compile start m).2 = (⟨start, p.flat.col⟩, { p.flat with col := (⟨start, p.flat.col⟩ : Ref).text }) := by
  simp [PathCond.compile, trim_key hk, PathCond.flat]

theorem compileConds_key (start : String) : ∀ (ps : List PathCond) (m : List JoinRec), (∀ p ∈ ps, KeyOnly p.hops p.cond.col) →
    (compileConds start m ps).2 = ps.map fun p => (⟨start, p.flat.col⟩, { p.flat with col := (⟨start, p.flat.col⟩ : Ref).text })
  | [], _, _ => rfl
  | p :: ps, m, h => by
    simp only [compileConds, List.map_cons, compile_key (h p (List.mem_cons_self ..)),
      compileConds_key start ps _ fun q hq => h q (List.mem_cons_of_mem _ hq)]

theorem compiled_key {a : JoinAgg} (hk : a.Keys) (s : Side) :
    a.compiled s = (a.filter.map fun p => (⟨s.text, p.flat.col⟩, { p.flat with col := (⟨s.text, p.flat.col⟩ : Ref).text }),
      a.exclude.map fun p => (⟨s.text, p.flat.col⟩, { p.flat with col := (⟨s.text, p.flat.col⟩ : Ref).text })) := by
  simp only [JoinAgg.compiled]
  rw [compileConds_key _ _ _ fun p hp => hk p (List.mem_append.2 (.inl hp)), compileConds_key _ _ _ fun p hp => hk p (List.mem_append.2 (.inr hp))]

theorem refs_key {a : JoinAgg} (hk : a.Keys) (s : Side) : a.refs s = (a.filter ++ a.exclude).map fun p => ⟨s.text, p.flat.col⟩ := by
  simp [JoinAgg.refs, compiled_key hk, List.map_map, Function.comp_def]

theorem resolved_key {a : JoinAgg} (hk : a.Keys) (s : Side) : a.Resolved s := by
  intro x hx
  rw [refs_key hk] at hx
  obtain ⟨p, _, rfl⟩ := List.mem_map.1 hx
  exact .inl rfl

theorem ref_text_inj {x y : Ref} (ha : x.alias = y.alias) (h : x.text = y.text) : x = y := by
  obtain ⟨a, c⟩ := x
  obtain ⟨a', c'⟩ := y
  simp only at ha
  subst ha
  simp only [Ref.text] at h
  have : (a ++ "." ++ c).toList = (a ++ "." ++ c').toList := by rw [h]
  simp only [String.toList_append, List.append_cancel_left_eq] at this
  rw [String.toList_inj.1 this]

theorem env_key {a : JoinAgg} (hk : a.Keys) (s : Side) (side r : Row) {p : PathCond} (hp : p ∈ a.filter ++ a.exclude) :
    a.env s side r (⟨s.text, p.flat.col⟩ : Ref).text = side p.flat.col := by
  unfold JoinAgg.env
  cases hf : (a.refs s).find? fun x => decide (x.text = (⟨s.text, p.flat.col⟩ : Ref).text) with
  | none =>
    have := List.find?_eq_none.1 hf ⟨s.text, p.flat.col⟩ (by rw [refs_key hk]; exact List.mem_map.2 ⟨p, hp, rfl⟩)
    simp at this
  | some x =>
    have hx := List.mem_of_find?_eq_some hf
    have ht := List.find?_some hf
    simp only [decide_eq_true_eq] at ht
    rw [refs_key hk] at hx
    obtain ⟨q, _, rfl⟩ := List.mem_map.1 hx
    have := ref_text_inj (x := ⟨s.text, q.flat.col⟩) (y := ⟨s.text, p.flat.col⟩) rfl ht
    simp only [Ref.mk.injEq, true_and] at this
    simp [this]

/-! ## Renaming the columns of a condition -/

def Filter.rename (f : Col → Col) : Filter → Filter
  | .tt => .tt
  | .cmp c l v => .cmp (f c) l v
  | .isNull c => .isNull (f c)
  | .and x y => .and (x.rename f) (y.rename f)
  | .not x => .not (x.rename f)

def Cond.rename (f : Col → Col) (c : Cond) : Cond := { c with col := f c.col }

theorem rename_toFilter (f : Col → Col) (c : Cond) : (c.rename f).toFilter = c.toFilter.rename f := by
  by_cases h : c.lookup = .exact ∧ c.value = .null
  · simp [Cond.toFilter, Cond.rename, h, Filter.rename]
  · simp only [Cond.toFilter, Cond.rename, if_neg h, Filter.rename]
    exact if_neg h

theorem rename_neg (f : Col → Col) (c : Cond) : (c.rename f).toNegFilters = c.toNegFilters.map (Filter.rename f) := by
  by_cases h : c.lookup = .exact ∧ c.value = .null
  · simp [Cond.toNegFilters, Cond.rename, h, Filter.rename]
  · simp only [Cond.toNegFilters, Cond.rename, if_neg h, Filter.rename, List.map_cons, List.map_nil]
    exact if_neg h

theorem rename_andAll (f : Col → Col) : ∀ fs : List Filter, andAll (fs.map (Filter.rename f)) = (andAll fs).rename f
  | [] => rfl
  | [_] => rfl
  | x :: y :: fs => by
    have := rename_andAll f (y :: fs)
    simp only [List.map_cons] at this ⊢
    simp only [andAll, Filter.rename, this]

theorem rename_whereOf (f : Col → Col) (fs es : List Cond) : whereOf (fs.map (Cond.rename f)) (es.map (Cond.rename f)) = (whereOf fs es).map (Filter.rename f) := by
  have h1 : (fs.map (Cond.rename f)).map Cond.toFilter = (fs.map Cond.toFilter).map (Filter.rename f) := by
    simp [List.map_map, Function.comp_def, rename_toFilter]
  have h2 : (es.map (Cond.rename f)).flatMap Cond.toNegFilters = (es.flatMap Cond.toNegFilters).map (Filter.rename f) := by
    simp [List.flatMap_map, List.map_flatMap, rename_neg]
  have h3 : (if es.map (Cond.rename f) = [] then [] else [Filter.not (andAll ((es.map (Cond.rename f)).flatMap Cond.toNegFilters))]) =
      (if es = [] then [] else [Filter.not (andAll (es.flatMap Cond.toNegFilters))]).map (Filter.rename f) := by
    by_cases he : es = []
    · simp [he]
    · rw [if_neg he, if_neg (by simpa using he), h2, rename_andAll]
      rfl
  unfold whereOf
  rw [h1, h3, ← List.map_append]
  generalize fs.map Cond.toFilter ++ (if es = [] then [] else [Filter.not (andAll (es.flatMap Cond.toNegFilters))]) = l
  cases l with
  | nil => rfl
  | cons x l => exact congrArg some (rename_andAll f (x :: l))

theorem rename_eval (f : Col → Col) (o : Row) : ∀ x : Filter, (x.rename f).eval o = x.eval fun c => o (f c)
  | .tt => rfl
  | .cmp _ _ _ => rfl
  | .isNull _ => rfl
  | .and x y => by simp [Filter.rename, Filter.eval, rename_eval f o x, rename_eval f o y]
  | .not x => by simp [Filter.rename, Filter.eval, rename_eval f o x]

theorem eval_congr {o o' : Row} : ∀ {x : Filter}, (∀ c ∈ x.cols, o c = o' c) → x.eval o = x.eval o'
  | .tt, _ => rfl
  | .cmp c l v, h => by simp [Filter.eval, h c (by simp [Filter.cols])]
  | .isNull c, h => by simp [Filter.eval, h c (by simp [Filter.cols])]
  | .and x y, h => by
    simp only [Filter.eval]
    rw [eval_congr (x := x) fun c hc => h c (by simp [Filter.cols, hc]), eval_congr (x := y) fun c hc => h c (by simp [Filter.cols, hc])]
  | .not x, h => by
    simp only [Filter.eval]
    rw [eval_congr (x := x) fun c hc => h c (by simpa [Filter.cols] using hc)]

/-- Lookups for keys: the WHERE clause is that of the aggregate with conditions on the related row itself. -/
theorem where_key {a : JoinAgg} (hk : a.Keys) (s : Side) (ch : Change) (db : Db) (r : Row) :
    a.where_ s (ch.side s) r = (Val.sqlEq (r a.model.pk) (ch.side s a.fk.attname) && (a.flat.guards s).all fun g => g.holds ch db) := by
  unfold JoinAgg.where_
  congr 1
  have hc : a.cond s = (whereOf a.flat.filter a.flat.exclude).map (Filter.rename fun c => s.text ++ "." ++ c) := by
    rw [← rename_whereOf]
    simp only [JoinAgg.cond, compiled_key hk, List.map_map, JoinAgg.flat]
    rfl
  rw [hc]
  unfold AggDenorm.guards
  cases hw : whereOf a.flat.filter a.flat.exclude with
  | none => rfl
  | some f =>
    simp only [Option.map_some, List.all_cons, List.all_nil, Bool.and_true, Guard.holds, Filter.holds, rename_eval]
    rw [eval_congr (x := f)]
    intro c hcm
    obtain ⟨x, hx, rfl⟩ := whereOf_cols hw hcm
    simp only [JoinAgg.flat, ← List.map_append] at hx
    obtain ⟨p, hp, rfl⟩ := List.mem_map.1 hx
    exact env_key hk s _ _ hp

/-- The value at the end of a lookup for keys is in the row itself. -/
theorem valueAt_key {db : Db} : ∀ {hs : List Hop} {c : Col} {o : Row}, KeyOnly hs c → Intact db hs o → valueAt db hs c o = o (ownColumn hs c)
  | [], _, _, _, _ => rfl
  | h :: hs, c, o, hk, hi => by
    simp only [valueAt, ownColumn]
    cases hf : (db.rows h.table).find? fun r => Val.sqlEq (r h.pk) (o h.column) with
    | none =>
      rcases hi with hn | ⟨⟨r, hr, he⟩, _⟩
      · exact hn.symm
      · by_cases hn : o h.column = .null
        · exact hn.symm
        · have := List.find?_eq_none.1 hf r hr
          exact absurd (Val.sqlEq_iff.2 ⟨he, by rw [he]; exact hn⟩) this
    | some r =>
      have hr := List.mem_of_find?_eq_some hf
      have hs := List.find?_some hf
      obtain ⟨he, hn⟩ := Val.sqlEq_iff.1 hs
      rcases hi with hn' | ⟨_, hi⟩
      · exact absurd (he.trans hn') hn
      · simp only
        rw [valueAt_key hk.1 (hi r hr he), hk.2, he]

theorem Cond.matches_congr {c c' : Cond} {o o' : Row} (hl : c.lookup = c'.lookup) (hv : c.value = c'.value) (h : o c.col = o' c'.col) :
    c.Matches o ↔ c'.Matches o' := by
  unfold Cond.Matches
  rw [hl, hv, h]

theorem matches_key {db : Db} {p : PathCond} {o : Row} (hk : KeyOnly p.hops p.cond.col) (hi : Intact db p.hops o) : p.Matches db o ↔ p.flat.Matches o :=
  Cond.matches_congr rfl rfl (valueAt_key hk hi)

theorem selects_key {a : JoinAgg} {db : Db} (hk : a.Keys) {o : Row} (hi : ∀ p ∈ a.filter ++ a.exclude, Intact db p.hops o) (k : Val) :
    a.Selects db k o ↔ a.flat.Selects k o := by
  have hf : ∀ p ∈ a.filter, (p.Matches db o ↔ p.flat.Matches o) := fun p hp =>
    matches_key (hk p (List.mem_append.2 (.inl hp))) (hi p (List.mem_append.2 (.inl hp)))
  have he : ∀ p ∈ a.exclude, (p.Matches db o ↔ p.flat.Matches o) := fun p hp =>
    matches_key (hk p (List.mem_append.2 (.inr hp))) (hi p (List.mem_append.2 (.inr hp)))
  unfold JoinAgg.Selects AggDenorm.Selects
  simp only [JoinAgg.flat, List.mem_map, List.map_eq_nil_iff, forall_exists_index, and_imp, forall_apply_eq_imp_iff₂]
  refine and_congr_right fun _ => and_congr_right fun _ => and_congr ?_ (or_congr_right ?_)
  · exact ⟨fun h p hp => (hf p hp).1 (h p hp), fun h p hp => (hf p hp).2 (h p hp)⟩
  · constructor
    · rintro ⟨p, hp, h⟩; exact ⟨_, ⟨p, hp, rfl⟩, fun h' => h ((he p hp).2 h')⟩
    · rintro ⟨_, ⟨p, hp, rfl⟩, h⟩; exact ⟨p, hp, fun h' => h ((he p hp).1 h')⟩

/-! ## Names that the database does not know -/

/-- What a joined table can be called. -/
def AliasOf (T : List TableName) (x : String) : Prop := x ∈ T ∨ ∃ n : Nat, x = "T" ++ toString n

theorem joinTo_alias {T : List TableName} {m : List JoinRec} {p : String} {h : Hop} (hm : ∀ j ∈ m, AliasOf T j.alias) (ht : h.table ∈ T) :
    (∀ j ∈ (joinTo m p h).1, AliasOf T j.alias) ∧ AliasOf T (joinTo m p h).2 := by
  unfold joinTo
  split
  · rename_i j hj
    exact ⟨hm, hm j (List.mem_of_find?_eq_some hj)⟩
  · have : AliasOf T (if m.any fun j => decide (j.table = h.table) then "T" ++ toString (m.length + 2) else h.table) := by
      split
      · exact .inr ⟨_, rfl⟩
      · exact .inl ht
    refine ⟨fun j hj => ?_, this⟩
    rcases List.mem_append.1 hj with hj | hj
    · exact hm j hj
    · rw [List.mem_singleton.1 hj]
      exact this

theorem setup_alias {T : List TableName} : ∀ {hs : List Hop} {m : List JoinRec} {p : String}, (∀ j ∈ m, AliasOf T j.alias) → (∀ h ∈ hs, h.table ∈ T) →
    (∀ j ∈ (setupJoins m p hs).1, AliasOf T j.alias) ∧ ∀ x ∈ (setupJoins m p hs).2, AliasOf T x
  | [], m, p, hm, _ => ⟨hm, fun x hx => absurd hx List.not_mem_nil⟩
  | h :: hs, m, p, hm, ht => by
    obtain ⟨h1, h2⟩ := joinTo_alias (p := p) hm (ht h (List.mem_cons_self ..))
    obtain ⟨h3, h4⟩ := setup_alias (p := (joinTo m p h).2) h1 fun h' hh => ht h' (List.mem_cons_of_mem _ hh)
    refine ⟨h3, fun x hx => ?_⟩
    rcases List.mem_cons.1 hx with rfl | hx
    · exact h2
    · exact h4 x hx

theorem compile_alias {T : List TableName} {start : String} {m : List JoinRec} {p : PathCond} (hm : ∀ j ∈ m, AliasOf T j.alias) (ht : ∀ h ∈ p.hops, h.table ∈ T) :
    (∀ j ∈ (p.compile start m).1, AliasOf T j.alias) ∧ (¬ KeyOnly p.hops p.cond.col → AliasOf T (p.compile start m).2.1.alias) := by
  obtain ⟨h1, h2⟩ := setup_alias (p := start) hm ht
  refine ⟨h1, fun hk => ?_⟩
  have hne := trim_not hk
  have hlen := trim_length p.hops p.cond.col
  simp only [PathCond.compile]
  cases hl : (trimJoins p.hops p.cond.col).1.length with
  | zero => exact absurd (List.length_eq_zero_iff.1 hl) hne
  | succ n =>
    have hlt : n < (setupJoins m start p.hops).2.length := by rw [setup_length]; omega
    rw [List.getElem?_cons_succ, List.getElem?_eq_getElem hlt, Option.getD_some]
    exact h2 _ (List.getElem_mem hlt)

theorem compileConds_alias {T : List TableName} {start : String} : ∀ {ps : List PathCond} {m : List JoinRec}, (∀ j ∈ m, AliasOf T j.alias) →
    (∀ p ∈ ps, ∀ h ∈ p.hops, h.table ∈ T) →
    (∀ j ∈ (compileConds start m ps).1, AliasOf T j.alias) ∧
    ∀ p ∈ ps, ¬ KeyOnly p.hops p.cond.col → ∃ x ∈ (compileConds start m ps).2.map Prod.fst, AliasOf T x.alias
  | [], m, hm, _ => ⟨hm, fun p hp => absurd hp List.not_mem_nil⟩
  | q :: ps, m, hm, ht => by
    obtain ⟨h1, h2⟩ := compile_alias (start := start) hm (ht q (List.mem_cons_self ..))
    obtain ⟨h3, h4⟩ := compileConds_alias (start := start) h1 fun p hp => ht p (List.mem_cons_of_mem _ hp)
    refine ⟨h3, fun p hp hk => ?_⟩
    rcases List.mem_cons.1 hp with rfl | hp
    · exact ⟨_, by simp only [compileConds, List.map_cons]; exact List.mem_cons_self .., h2 hk⟩
    · obtain ⟨x, hx, h5⟩ := h4 p hp hk
      exact ⟨x, by simp only [compileConds, List.map_cons]; exact List.mem_cons_of_mem _ hx, h5⟩

theorem refs_alias {a : JoinAgg} {p : PathCond} (hp : p ∈ a.filter ++ a.exclude) (hk : ¬ KeyOnly p.hops p.cond.col) (s : Side) :
    ∃ x ∈ a.refs s, AliasOf ((a.filter ++ a.exclude).flatMap fun p => p.hops.map Hop.table) x.alias := by
  have hT : ∀ p ∈ a.filter ++ a.exclude, ∀ h ∈ p.hops, h.table ∈ (a.filter ++ a.exclude).flatMap fun p => p.hops.map Hop.table :=
    fun p hp h hh => List.mem_flatMap.2 ⟨p, hp, List.mem_map.2 ⟨h, hh, rfl⟩⟩
  obtain ⟨h1, h2⟩ := compileConds_alias (start := s.text) (m := []) (fun j hj => absurd hj List.not_mem_nil)
    fun p hp => hT p (List.mem_append.2 (.inl hp))
  obtain ⟨h3, h4⟩ := compileConds_alias (start := s.text) h1 fun p hp => hT p (List.mem_append.2 (.inr hp))
  simp only [JoinAgg.refs, JoinAgg.compiled, List.map_append, List.mem_append]
  rcases List.mem_append.1 hp with hp | hp
  · obtain ⟨x, hx, h⟩ := h2 p hp hk; exact ⟨x, .inl hx, h⟩
  · obtain ⟨x, hx, h⟩ := h4 p hp hk; exact ⟨x, .inr hx, h⟩

theorem not_side (n : Nat) (s : Side) : "T" ++ toString n ≠ s.text := by
  intro h
  have h1 : ("T" ++ toString n).toList = s.text.toList := by rw [h]
  cases s <;> simp [Side.text] at h1

end Denorm
