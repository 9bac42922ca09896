import Verif.Lemmas.Range
import Verif.Props.Aggregates
/-!
# C67: an aggregate's column takes every number it is given

A CountField or SumField is a PositiveIntegerField: a statement on related rows must not be refused by the database because of it as long as
the right numbers are not negative.
-/
namespace Denorm

/-- C67 for CountField: no statement is refused because of it, after any history. -/
theorem C67_count {E : Engine} {D : List Denorm} {a : AggDenorm} (hE : Installed E D) (hD : AggDeclared E.backend D a)
    (hN : NoReentry E) (hc : a.agg = .count) (hF : ∀ dn ∈ D, ∀ c ∈ (a.filter ++ a.exclude).map Cond.col, (a.related.table, c) ∉ dn.writes)
    (fuel : Nat) (ss : List Stmt) (db : Db) (hL : CountLegalRun E a fuel ss db) (hok : AggOk a db) (s : Stmt)
    (hs : CountLegal a (E.run fuel ss db) s) : ¬ RefusedByRange E a s (E.run fuel ss db) := by
  rintro ⟨W, db', hr, r, hmem, n, hv, hn⟩
  obtain ⟨m, hm, hp⟩ := C14_nonnegative hE hD hN hc hF fuel ss db hL hok s hs W db' hr r hmem
  rw [hv] at hm
  simp only [Val.int.injEq] at hm
  omega

/-- C67 for SumField, where the summed column never holds a negative number and is not itself maintained by triggers: no statement is refused
because of it, after any history. Missing: negative numbers (`C67_violated_negative`). -/
theorem C67_sum_partial {E : Engine} {D : List Denorm} {a : AggDenorm} {S : List (TableName × Col)} (hE : Installed E D)
    (hD : AggDeclared E.backend D a) (hN : NoReentry E) (hS : IntClosed E.backend D S) (hm : (a.model.table, a.fieldname) ∈ S)
    (hF : ∀ dn ∈ D, ∀ c ∈ a.relevant, (a.related.table, c) ∉ dn.writes) (fuel : Nat) (ss : List Stmt) (db : Db)
    (hL : AggLegalRun E a S fuel ss db) (hc : ∀ s ∈ ss, NonNegLegal a s) (hI : ∀ t, ∀ r ∈ db.rows t, IntRow S t r)
    (hn : ∀ o ∈ db.rows a.related.table, a.NonNeg o) (hok : AggOk a db) (s : Stmt) (hs : AggLegal a S (E.run fuel ss db) s)
    (hcs : NonNegLegal a s) : InRange a (E.run fuel ss db) ∧ ¬ RefusedByRange E a s (E.run fuel ss db) := by
  obtain ⟨h1, h2, h3⟩ := nonneg_run hE hD hN hS hm hF fuel ss db hL hc hI hn hok
  refine ⟨fun r hr => ⟨_, h3 r hr, total_nonneg h2 _⟩, ?_⟩
  rintro ⟨W, db', hr, r, hmem, n, hv, hn⟩
  obtain ⟨m, hm', hp⟩ := count_reach hE hD hN hS hm hF hcs h2 hs h1 h3 hr r hmem
  rw [hv] at hm'
  simp only [Val.int.injEq] at hm'
  omega

namespace Demo
set_option maxRecDepth 100000

/-- Scores -3 and 4: the sum is 1. -/
def debtDb : Db := ⟨fun t => if t = "forum" then [frow 1 "A" "" "" 1] else if t = "score" then [srow 1 1 (.int (-3)), srow 2 1 (.int 4)] else [], [], 0⟩

/-- The first score becomes -2; the sum should be 2 afterwards. -/
def lessDebt : Stmt := .update "score" (fun r => decide (r "id" = .int 1)) (fun _ r => r.set "points" (.int (-2)))

/-- C67 is violated by negative numbers: all sums are right and not negative before, and would be afterwards, but the triggers add the new
number before they subtract the old one, so the sum is -1 on the way and the database refuses the statement. -/
theorem C67_violated_negative (b : Backend) : ∃ (E : Engine) (D : List Denorm) (a : AggDenorm) (db : Db) (s : Stmt) (db' : Db),
    E.backend = b ∧ Installed E D ∧ AggDeclared E.backend D a ∧ AggOk a db ∧ InRange a db ∧ E.exec 100 s db = .ok db' ∧ AggOk a db' ∧
    InRange a db' ∧ RefusedByRange E a s db := by
  have inRange : ∀ {n : Int} {db : Db}, 0 ≤ n → (db.rows "forum").map (fun r => r "post_count") = [.int n] → InRange scoreSum db := by
    intro n db h0 h r hr
    have : r "post_count" ∈ (db.rows "forum").map (fun r => r "post_count") := List.mem_map.2 ⟨r, hr, rfl⟩
    rw [h] at this
    exact ⟨n, List.mem_singleton.1 this, h0⟩
  obtain ⟨db', h, h1, h2⟩ : ∃ db', (sumEngine b).exec 100 lessDebt debtDb = .ok db' ∧
      ((∀ r ∈ db'.rows scoreSum.model.table, r scoreSum.fieldname = .int (scoreSum.total db' (r scoreSum.model.pk))) ∧
        (db'.rows "forum").map (fun r => r "post_count") = [.int 2]) := ok_of (by cases b <;> decide)
  obtain ⟨W, x, hr, r, hm, hv⟩ : ∃ W x, (sumEngine b).Reach ((sumEngine b).start lessDebt debtDb) debtDb W x ∧
      ∃ r ∈ x.rows scoreSum.model.table, r scoreSum.fieldname = .int (-1) :=
    ⟨_, _, (sumEngine b).reach_walk 3 _ _, by cases b <;> decide⟩
  exact ⟨sumEngine b, [.aggregate scoreSum], scoreSum, debtDb, lessDebt, db', rfl, rfl, ad_sum b, by unfold AggOk; decide,
    inRange (n := 1) (by decide) (by decide), h, h1, inRange (by decide) h2, W, x, hr, r, hm, -1, hv, by decide⟩

/-! ## The hypotheses are met -/

/-- Scores are added, changed and removed, all of them non-negative. -/
def plusHistory : List Stmt :=
  [.insert "score" [srow 3 1 (.int 10)], .update "score" (fun r => decide (r "id" = .int 1)) (fun _ r => r.set "points" (.int 4))]

theorem plus_update (db : Db) : AggLegal scoreSum sumCols db (.update "score" (fun r => decide (r "id" = .int 1)) (fun _ r => r.set "points" (.int 4))) := by
  refine ⟨fun x r _ c hc => ?_, fun h => absurd h (by decide)⟩
  simp only [sumCols, List.mem_cons, Prod.mk.injEq, List.not_mem_nil, or_false] at hc
  rcases hc with ⟨h, _⟩ | ⟨_, rfl⟩
  · exact absurd h (by decide)
  · exact ⟨4, by simp [Row.set]⟩

theorem plus_insert (db : Db) : AggLegal scoreSum sumCols db (.insert "score" [srow 3 1 (.int 10)]) := by
  refine ⟨fun r hr => ?_, fun h => absurd h (by decide)⟩
  simp only [List.mem_singleton] at hr
  subst hr
  exact intRow_of (by decide)

theorem plus_nonneg : ∀ s ∈ plusHistory, NonNegLegal scoreSum s := by
  intro s hs
  simp only [plusHistory, List.mem_cons, List.not_mem_nil, or_false] at hs
  rcases hs with rfl | rfl
  · intro _ r hr f hf
    simp only [List.mem_singleton] at hr
    simp only [scoreSum, Agg.sum.injEq] at hf
    subst hr hf
    decide
  · intro _ x r _ f hf
    simp only [scoreSum, Agg.sum.injEq] at hf
    subst hf
    simp [Row.set, Val.toInt]

theorem sum_ints : ∀ t, ∀ r ∈ sumDb.rows t, IntRow sumCols t r := by
  intro t r hr
  by_cases h1 : t = "forum"
  · subst h1; exact intRow_of (by revert r; decide)
  · by_cases h2 : t = "score"
    · subst h2; exact intRow_of (by revert r; decide)
    · simp [sumDb, h1, h2] at hr

theorem sum_nonneg0 : ∀ o ∈ sumDb.rows "score", scoreSum.NonNeg o := by
  intro o ho f hf
  simp only [scoreSum, Agg.sum.injEq] at hf
  subst hf
  revert o
  decide

/-- `C67_sum_partial`: after that history the deletion of a score is not refused; the sum goes from 5 to 17 and then to 14. -/
example (b : Backend) : (InRange scoreSum ((sumEngine b).run 100 plusHistory sumDb) ∧
      ¬ RefusedByRange (sumEngine b) scoreSum (.delete "score" (fun r => decide (r "id" = .int 2))) ((sumEngine b).run 100 plusHistory sumDb)) ∧
    (((sumEngine b).run 100 plusHistory sumDb).rows "forum").map (fun r => r "post_count") = [.int 17] := by
  refine ⟨C67_sum_partial (E := sumEngine b) (D := [.aggregate scoreSum]) rfl (ad_sum b) (sum_noReentry b) (sum_closed b) (by decide) (by decide) 100
    plusHistory sumDb (by cases b <;> exact ⟨plus_insert _, plus_update _, trivial⟩) plus_nonneg sum_ints sum_nonneg0 (by unfold AggOk; decide) _
    trivial trivial, by cases b <;> decide⟩

/-- `C67_count`: posts leave and enter the filter. -/
example (b : Backend) : ¬ RefusedByRange (goodEngine b) goodCount (.update "post" (fun _ => true) (fun _ r => r.set "title" .null))
    ((goodEngine b).run 100 goodHistory goodDb) :=
  C67_count (E := goodEngine b) (D := [.aggregate goodCount]) rfl (ad_good b) (good_noReentry b) rfl (by decide) 100 goodHistory goodDb
    (by
      have upd : ∀ db w σ, CountLegal goodCount db (.update "post" w σ) := fun _ _ _ h => absurd h (by decide)
      cases b <;> exact ⟨upd _ _ _, upd _ _ _, upd _ _ _, trivial⟩)
    (by unfold AggOk; decide) _ (fun h => absurd h (by decide))

end Demo
end Denorm
