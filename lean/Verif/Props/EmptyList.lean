import Verif.Spec.EmptyList
import Verif.Props.Aggregates
/-!
# Filters with an empty list (C11, C48)
-/
namespace Denorm

theorem asSqlLoop_some (neg : Bool) : ∀ (fs : List Filter) (cs : List Compiled) (n : Nat) (acc : List Filter),
    asSqlLoop neg n acc (fs.map (fun f => .ok (some f)) ++ cs) = asSqlLoop neg n (acc ++ fs) cs
  | [], cs, n, acc => by simp
  | f :: fs, cs, n, acc => by
    simp only [List.map_cons, List.cons_append]
    rw [show asSqlLoop neg n acc (.ok (some f) :: (fs.map (fun f => .ok (some f)) ++ cs)) = asSqlLoop neg n (acc ++ [f]) (fs.map (fun f => .ok (some f)) ++ cs)
      by cases acc <;> rfl, asSqlLoop_some neg fs cs n]
    simp

theorem asSqlLoop_error (neg : Bool) (n : Nat) (acc : List Filter) (cs : List Compiled) (e : EmptyResultSet) :
    asSqlLoop neg n acc (.error e :: cs) = if neg then .ok none else .error e := by cases acc <;> rfl

theorem asSqlLoop_nil (neg : Bool) (n : Nat) (acc : List Filter) :
    asSqlLoop neg n acc [] = .ok (if acc = [] then none else some (if neg then .not (andAll acc) else andAll acc)) := by
  cases acc <;> simp [asSqlLoop]

/-- Keywords without empty lists are conditions. -/
theorem kws_conds : ∀ {ks : List Kw}, ks.any Kw.isEmpty = false → ks = (ks.flatMap Kw.conds).map Kw.cond
  | [], _ => rfl
  | .cond c :: ks, h => by
    simp only [List.any_cons, Bool.or_eq_false_iff] at h
    simp only [List.flatMap_cons, Kw.conds, List.singleton_append, List.map_cons]
    rw [← kws_conds h.2]
  | .emptyIn c :: ks, h => by simp [Kw.isEmpty] at h

/-- Keywords with an empty list. -/
theorem kws_split : ∀ {ks : List Kw}, ks.any Kw.isEmpty = true → ∃ (cs : List Cond) (c : Col) (rest : List Kw), ks = cs.map Kw.cond ++ .emptyIn c :: rest
  | [], h => by simp at h
  | .cond c :: ks, h => by
    obtain ⟨cs, c', rest, e⟩ := kws_split (ks := ks) (by simpa [Kw.isEmpty] using h)
    exact ⟨c :: cs, c', rest, by rw [e]; rfl⟩
  | .emptyIn c :: ks, _ => ⟨[], c, ks, rfl⟩

theorem compile_conds (cs : List Cond) : (cs.map Kw.cond).map Kw.compile = (cs.map Cond.toFilter).map fun f => .ok (some f) := by
  simp [List.map_map, Function.comp_def, Kw.compile]

theorem compileNeg_conds (cs : List Cond) : (cs.map Kw.cond).flatMap Kw.compileNeg = (cs.flatMap Cond.toNegFilters).map fun f => .ok (some f) := by
  induction cs with
  | nil => rfl
  | cons c cs ih => simp only [List.map_cons, List.flatMap_cons, ih, Kw.compileNeg, List.map_append]

theorem toNegFilters_ne (c : Cond) : c.toNegFilters ≠ [] := by
  unfold Cond.toNegFilters
  split <;> simp

/-- `~Q(**exclude)`. -/
theorem exclude_sql (ks : List Kw) (h : ks ≠ []) : asSql true (ks.flatMap Kw.compileNeg) =
    .ok (if ks.any Kw.isEmpty then none else some (.not (andAll ((ks.flatMap Kw.conds).flatMap Cond.toNegFilters)))) := by
  cases he : ks.any Kw.isEmpty with
  | false =>
    have e := kws_conds he
    generalize ks.flatMap Kw.conds = cs at e
    subst e
    rw [compileNeg_conds, asSql, ← List.append_nil (List.map _ _), asSqlLoop_some, asSqlLoop_nil]
    cases cs with
    | nil => simp at h
    | cons c cs => simp [toNegFilters_ne]
  | true =>
    obtain ⟨cs, c, rest, rfl⟩ := kws_split he
    rw [List.flatMap_append, compileNeg_conds, asSql, asSqlLoop_some, List.flatMap_cons, Kw.compileNeg, List.cons_append, asSqlLoop_error]
    rfl

/-- The condition of the triggers, whatever lists are empty. -/
theorem whereSql_eq (filter exclude : List Kw) : whereSql filter exclude =
    if filter.any Kw.isEmpty then .error .raised
    else .ok (whereOf (filter.flatMap Kw.conds) (if exclude.any Kw.isEmpty then [] else exclude.flatMap Kw.conds)) := by
  rw [whereSql, asSql]
  cases hf : filter.any Kw.isEmpty with
  | true =>
    obtain ⟨cs, c, rest, rfl⟩ := kws_split hf
    rw [List.map_append, compile_conds, List.append_assoc, asSqlLoop_some, List.map_cons, Kw.compile, List.cons_append, asSqlLoop_error]
    rfl
  | false =>
    have e := kws_conds hf
    generalize filter.flatMap Kw.conds = cs at e
    subst e
    rw [compile_conds, asSqlLoop_some]
    by_cases hx : exclude = []
    · subst hx
      simp only [if_true, List.any_nil, Bool.false_eq_true, if_false, List.flatMap_nil, List.nil_append, asSqlLoop_nil, whereOf, List.append_nil]
      cases cs <;> simp
    · simp only [if_neg hx, exclude_sql exclude hx, Bool.false_eq_true, if_false]
      cases he : exclude.any Kw.isEmpty with
      | true =>
        simp only [if_true, List.nil_append, whereOf, List.append_nil]
        cases cs with
        | nil => rfl
        | cons c cs => simp [asSqlLoop, asSqlLoop_nil]
      | false =>
        have e := kws_conds he
        have hne : exclude.flatMap Kw.conds ≠ [] := by
          intro h0
          rw [h0] at e
          exact hx e
        simp only [Bool.false_eq_true, if_false, whereOf, if_neg hne, List.nil_append]
        rw [show ∀ n acc (f : Filter), asSqlLoop false n acc [.ok (some f)] = asSqlLoop false n (acc ++ [f]) [] from fun n acc f => by cases acc <;> rfl, asSqlLoop_nil]
        cases cs <;> simp

theorem KwAgg.triggers_eq (k : KwAgg) : k.triggers = if k.filter.any Kw.isEmpty then .error .raised else .ok k.norm.triggers := by
  unfold KwAgg.triggers
  rw [whereSql_eq]
  cases k.filter.any Kw.isEmpty <;> rfl

theorem hopeless_iff {d : KwDecl} : d.Hopeless ↔ d.triggers = .error .raised := by
  cases d with
  | plain d => simp [KwDecl.Hopeless, KwDecl.triggers]
  | agg k =>
    rw [KwDecl.triggers, KwAgg.triggers_eq]
    cases h : k.filter.any Kw.isEmpty with
    | true =>
      obtain ⟨cs, c, rest, e⟩ := kws_split h
      simp only [KwDecl.Hopeless, if_true, iff_true]
      exact ⟨c, by rw [e]; simp⟩
    | false =>
      simp only [KwDecl.Hopeless, Bool.false_eq_true, if_false, reduceCtorEq, iff_false]
      rintro ⟨c, hc⟩
      have := List.any_eq_false.1 h _ hc
      simp [Kw.isEmpty] at this

theorem triggers_norm {d : KwDecl} (h : ¬ d.Hopeless) : d.triggers = .ok d.norm.triggers := by
  cases d with
  | plain d => rfl
  | agg k =>
    rw [hopeless_iff, KwDecl.triggers, KwAgg.triggers_eq] at h
    rw [KwDecl.triggers, KwAgg.triggers_eq]
    cases hf : k.filter.any Kw.isEmpty with
    | true => simp [hf] at h
    | false => rfl

theorem buildKwFrom_ok (b : Backend) : ∀ (ds : List KwDecl) (ts : TriggerSet), (∀ d ∈ ds, ¬ d.Hopeless) →
    buildKwFrom b ts ds = .ok ((ds.map KwDecl.norm).foldl (fun ts d => ts.append b d.triggers) ts)
  | [], _, _ => rfl
  | d :: ds, ts, h => by
    simp only [buildKwFrom, triggers_norm (h d (by simp)), List.map_cons, List.foldl_cons]
    exact buildKwFrom_ok b ds _ fun d hd => h d (by simp [hd])

theorem buildKwFrom_error (b : Backend) : ∀ (ds : List KwDecl) (ts : TriggerSet), (∃ d ∈ ds, d.Hopeless) → buildKwFrom b ts ds = .error .raised
  | [], _, h => by simp at h
  | d :: ds, ts, h => by
    by_cases hd : d.Hopeless
    · simp only [buildKwFrom, hopeless_iff.1 hd]
    · simp only [buildKwFrom, triggers_norm hd]
      obtain ⟨d', hm, hh⟩ := h
      rcases List.mem_cons.1 hm with rfl | hm
      · exact absurd hh hd
      · exact buildKwFrom_error b ds _ ⟨d', hm, hh⟩

/-- **C48, partial.** The empty lists do not keep `denorm_init` from installing triggers as long as they are in `exclude=`; what it does then is what it
does for the declarations without them. -/
theorem C48_empty_exclude_partial (b : Backend) (hash : String → String) (draws : Nat → String) (fails : Nat → Bool) (using_ : String) (ds : List KwDecl)
    (h : ∀ d ∈ ds, ¬ d.Hopeless) (s : Server) :
    installKw b hash draws fails using_ ds s = installTriggers b hash draws fails using_ (ds.map KwDecl.norm) s := by
  simp only [installKw, buildKw, buildKwFrom_ok b ds [] h]
  rfl

/-- C48 is violated by every project with an empty list in a `filter=`: `denorm_init` raises EmptyResultSet and no trigger is installed, for no field of the
project. (The query that `filter=` stands for selects nothing; it raises nothing.) -/
theorem C48_violated_empty_list (b : Backend) (hash : String → String) (draws : Nat → String) (fails : Nat → Bool) (using_ : String) (ds : List KwDecl)
    (h : ∃ d ∈ ds, d.Hopeless) (s : Server) : installKw b hash draws fails using_ ds s = (s, false) := by
  simp only [installKw, buildKw, buildKwFrom_error b ds [] h]

theorem selects_norm {k : KwAgg} (h : ¬ (KwDecl.agg k).Hopeless) (v : Val) (o : Row) : k.norm.Selects v o ↔ k.Selects v o := by
  have hf : k.filter.any Kw.isEmpty = false := by
    cases hf : k.filter.any Kw.isEmpty with
    | false => rfl
    | true =>
      obtain ⟨cs, c, rest, e⟩ := kws_split hf
      exact absurd ⟨c, by rw [e]; simp⟩ h
  have key : ∀ cs : List Cond, (∀ c ∈ cs.map Kw.cond, c.Matches o) ↔ ∀ c ∈ cs, c.Matches o := by
    intro cs
    simp [Kw.Matches]
  simp only [AggDenorm.Selects, KwAgg.Selects, KwAgg.norm]
  rw [kws_conds hf, key]
  have hx : ((if k.exclude.any Kw.isEmpty then [] else k.exclude.flatMap Kw.conds) = [] ∨
      ∃ c ∈ (if k.exclude.any Kw.isEmpty then [] else k.exclude.flatMap Kw.conds), ¬ c.Matches o) ↔
      (k.exclude = [] ∨ ∃ c ∈ k.exclude, ¬ c.Matches o) := by
    cases he : k.exclude.any Kw.isEmpty with
    | true =>
      obtain ⟨cs, c, rest, e⟩ := kws_split he
      simp only [if_true, true_or, true_iff]
      exact .inr ⟨.emptyIn c, by rw [e]; simp, id⟩
    | false =>
      have e := kws_conds he
      simp only [Bool.false_eq_true, if_false]
      generalize k.exclude.flatMap Kw.conds = cs at e
      rw [e]
      simp only [List.map_eq_nil_iff, List.mem_map]
      constructor
      · rintro (h | ⟨c, h1, h2⟩)
        · exact .inl h
        · exact .inr ⟨_, ⟨c, h1, rfl⟩, h2⟩
      · rintro (h | ⟨_, ⟨c, h1, rfl⟩, h2⟩)
        · exact .inl h
        · exact .inr ⟨c, h1, h2⟩
  rw [hx, ← kws_conds hf]

/-- **C11.** With empty lists: if `denorm_init` can install the triggers of the declarations and they are the triggers of the database, a CountField with any
`filter=` and `exclude=` holds, after every history of statements, the number of related rows that `filter(**filter).exclude(**exclude)` selects. -/
theorem C11_empty_lists {E : Engine} {ds : List KwDecl} {k : KwAgg} {ts : TriggerSet} (hb : buildKw E.backend ds = .ok ts)
    (hE : E.triggers = ts.map fun p => p.2.compile p.1) (hm : .agg k ∈ ds) (hD : AggDeclared E.backend (ds.map KwDecl.norm) k.norm) (hN : NoReentry E)
    (hc : k.base.agg = .count) (fuel : Nat) (ss : List Stmt) (db : Db) (hL : CountLegalRun E k.norm fuel ss db)
    (h0 : ∀ r ∈ db.rows k.base.model.table, r k.base.fieldname =
      .int ((db.rows k.base.related.table).filter fun o => decide (k.Selects (r k.base.model.pk) o)).length) :
    ∀ r ∈ (E.run fuel ss db).rows k.base.model.table, r k.base.fieldname =
      .int (((E.run fuel ss db).rows k.base.related.table).filter fun o => decide (k.Selects (r k.base.model.pk) o)).length := by
  have hno : ∀ d ∈ ds, ¬ d.Hopeless := by
    intro d hd hh
    rw [buildKw, buildKwFrom_error _ ds [] ⟨d, hd, hh⟩] at hb
    cases hb
  have hI : Installed E (ds.map KwDecl.norm) := by
    rw [buildKw, buildKwFrom_ok _ ds [] hno] at hb
    simp only [Except.ok.injEq] at hb
    rw [Installed, hE, ← hb]
    rfl
  have hs : ∀ v o, decide (k.norm.Selects v o) = decide (k.Selects v o) := fun v o => by
    rw [Bool.eq_iff_iff, decide_eq_true_eq, decide_eq_true_eq, selects_norm (hno _ hm)]
  have hok : AggOk k.norm db := by
    intro r hr
    refine (h0 r hr).trans ?_
    rw [AggDenorm.total]
    simp only [show k.norm.agg = .count from hc, hs]
    rfl
  intro r hr
  refine Eq.trans (C11_filtered_count hI hD hN (show k.norm.agg = .count from hc) fuel ss db hL hok r hr) ?_
  simp only [hs]
  rfl

/-! ## The hypotheses can be met, and the claims are not empty -/

namespace Demo
set_option maxRecDepth 100000

/-- `CountField('post_set', filter={'title__in': ['x', 'b', 'c'], 'id__range': (1, 2)}, exclude={'id__in': []})` -/
def listCount : KwAgg :=
  { base := postCount, filter := [.cond ⟨"title", .oneOf [.text "b", .text "c"], .text "x"⟩, .cond ⟨"id", .between (.int 2), .int 1⟩],
    exclude := [.emptyIn "id"] }

def listEngine (b : Backend) : Engine := ⟨b, installedTriggers b [.aggregate listCount.norm], fun _ => 0⟩

theorem list_built (b : Backend) : ∃ ts, buildKw b [.agg listCount] = .ok ts ∧ (listEngine b).triggers = ts.map fun p => p.2.compile p.1 :=
  ⟨_, buildKwFrom_ok b _ [] (by simp only [List.mem_singleton, forall_eq]; rintro ⟨c, hc⟩; simp [listCount] at hc), rfl⟩

theorem ad_list (b : Backend) : AggDeclared b [.aggregate listCount.norm] listCount.norm where
  declared := by simp
  covered := by cases b <;> decide
  only := by simp
  pk := by decide
  fk := by decide
  watched := by decide
  fkcol := rfl
  conds := by decide

theorem list_noReentry (b : Backend) : NoReentry (listEngine b) := by
  apply noReentry_of (fun n => if n.endsWith "forum" then 0 else 1)
  cases b <;> decide

theorem list_legal (b : Backend) : CountLegalRun (listEngine b) listCount.norm 100 goodHistory goodDb := by
  have upd : ∀ db w σ, CountLegal listCount.norm db (.update "post" w σ) := fun _ _ _ h => absurd h (by decide)
  cases b <;> exact ⟨upd _ _ _, upd _ _ _, upd _ _ _, trivial⟩

/-- C11 with lists, ranges and an empty list: a row is moved into the list and another forum, one out of the list. -/
example (b : Backend) : (∀ r ∈ ((listEngine b).run 100 goodHistory goodDb).rows "forum", r "post_count" =
      .int ((((listEngine b).run 100 goodHistory goodDb).rows "post").filter fun o => decide (listCount.Selects (r "id") o)).length) ∧
    (goodDb.rows "forum").map (fun r => r "post_count") = [.int 1, .int 0] ∧
    (((listEngine b).run 100 goodHistory goodDb).rows "forum").map (fun r => r "post_count") = [.int 0, .int 1] := by
  obtain ⟨ts, h1, h2⟩ := list_built b
  exact ⟨C11_empty_lists (E := listEngine b) (k := listCount) h1 h2 (by simp) (ad_list b) (list_noReentry b) rfl 100 goodHistory goodDb (list_legal b) (by decide),
    by decide, by cases b <;> decide⟩

/-- The same with `filter={'title__in': []}` next to the other fields of the project: no trigger is installed. -/
example (b : Backend) (s : Server) : installKw b id (fun _ => "") (fun _ => false) defaultAlias (.agg { listCount with filter := [.emptyIn "title"] } :: decls.map .plain) s =
    (s, false) :=
  C48_violated_empty_list b _ _ _ _ _ ⟨_, List.mem_cons_self, show KwDecl.Hopeless (.agg _) from ⟨"title", List.mem_cons_self⟩⟩ s

end Demo

end Denorm
