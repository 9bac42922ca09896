import Verif.Lemmas.Store
import Verif.Props.Range
/-!
# C80: a SumField over decimals is right up to rounding; C67 with the column's type

The column of a CountField or SumField is a PositiveIntegerField, whatever is summed. `Sql/Store` has the engine in which this column rounds and refuses; numbers are in
units of `1/u` there, so that decimals of a fixed number of places can be summed.
-/
namespace Denorm

theorem not_takes_iff {a : AggDenorm} {b : Backend} {db : Db} : ¬ (a.column b 1).Takes db ↔ ∃ r ∈ db.rows a.model.table,
    r a.fieldname = .null ∨ ∃ n, r a.fieldname = .int n ∧ (n < 0 ∨ ∃ l, b.intLimit = some l ∧ l < n) := by
  have hone : ∀ n : Int, ((1 : Nat) : Int) ∣ n := fun n => ⟨n, by simp⟩
  constructor
  · intro h
    apply Classical.byContradiction
    intro hn
    refine h fun t r hr => ?_
    simp only [AggDenorm.column, positiveColumn]
    split
    · rename_i e
      subst e
      have hs : b.storePositive 1 (r a.fieldname) = some (r a.fieldname) := by
        cases hv : r a.fieldname with
        | null => exact absurd ⟨r, hr, .inl hv⟩ hn
        | text s => rfl
        | int n =>
          refine storePositive_some (by decide) ?_ (hone n) fun l hl => ?_
          · exact Int.not_lt.1 fun h0 => hn ⟨r, hr, .inr ⟨n, hv, .inl h0⟩⟩
          · have := Int.not_lt.1 fun h0 => hn ⟨r, hr, .inr ⟨n, hv, .inr ⟨l, hl, h0⟩⟩⟩
            simpa using this
      rw [hs]
      simp only [Option.map_some, Option.some.injEq]
      funext c
      simp only [Row.set]
      split
      · rename_i e; rw [e]
      · rfl
    · rfl
  · rintro ⟨r, hr, hbad⟩ hk
    have := hk _ r hr
    simp only [AggDenorm.column, positiveColumn, if_true] at this
    rcases hbad with h | ⟨n, h, hn⟩
    · rw [h] at this
      simp [Backend.storePositive] at this
    · rw [h] at this
      have hm : (if b = .sqlite then n else roundTo 1 n) = n := by
        split
        · rfl
        · exact roundTo_whole (by decide) (hone n)
      simp only [Backend.storePositive, hm] at this
      split at this
      · simp at this
      · rcases hn with hn | ⟨l, hl, hn⟩
        · omega
        · rw [hl] at this
          simp only [] at this
          rw [if_pos (by simpa using hn)] at this
          simp at this

/-- C67: with the column's type in the model, a statement is refused because of the aggregate exactly if at some moment its column would hold NULL, a negative number or
one above its limit (`RefusedByRange` is the part about negative numbers). -/
theorem C67_refused_iff {E : Engine} {a : AggDenorm} {fuel : Nat} {s : Stmt} {db x : Db} (hdb : FitsColumn E.backend 1 a db) (he : E.exec fuel s db = .ok x) :
    E.execStored (a.column E.backend 1) fuel s db = .error .refused ↔ RefusedByColumn E a s db := by
  rw [refused_iff (column_strict a E.backend) he (column_takes (by decide) hdb)]
  constructor
  · rintro ⟨W, db', hr, hk⟩
    exact ⟨W, db', hr, not_takes_iff.1 hk⟩
  · rintro ⟨W, db', hr, hk⟩
    exact ⟨W, db', hr, not_takes_iff.2 hk⟩

/-- C67 for CountField: after every history the database with its column types is the one of C10 and C11; no statement was refused. Counts up to the limit. -/
theorem C67_count_stored {E : Engine} {D : List Denorm} {a : AggDenorm} (hE : Installed E D) (hD : AggDeclared E.backend D a) (hN : NoReentry E)
    (hc : a.agg = .count) (hF : ∀ dn ∈ D, ∀ c ∈ (a.filter ++ a.exclude).map Cond.col, (a.related.table, c) ∉ dn.writes) (fuel : Nat) :
    ∀ (ss : List Stmt) (db : Db), CountLegalRun E a fuel ss db → NeverTooLarge E 1 a fuel ss db → AggOk a db →
      E.runStored (a.column E.backend 1) fuel ss db = E.run fuel ss db
  | [], _, _, _, _ => rfl
  | s :: ss, db, hL, hT, hok => by
    simp only [CountLegalRun] at hL
    simp only [NeverTooLarge] at hT
    have hx : E.execStored (a.column E.backend 1) fuel s db = (E.exec fuel s db).mapError .db := by
      refine execStored_eq fun W db' hr => column_takes (by decide) fun r hm => ?_
      obtain ⟨n, h1, h2⟩ := C14_nonnegative hE hD hN hc hF fuel [] db trivial hok s hL.1 W db' hr r hm
      exact ⟨n, h1, h2, ⟨n, by simp⟩, fun l hl => hT.1 W db' hr r hm n l h1 hl⟩
    simp only [Engine.run, Engine.runStored, hx]
    cases he : E.exec fuel s db with
    | ok db' =>
      rw [he] at hL hT
      have := count_run hE hD hN hc fuel [s] db (by simp only [CountLegalRun, he]; exact ⟨hL.1, trivial⟩) hok
      simp only [Engine.run, he] at this
      exact C67_count_stored hE hD hN hc hF fuel ss db' hL.2 hT.2 this
    | error e =>
      rw [he] at hL hT
      exact C67_count_stored hE hD hN hc hF fuel ss db hL.2 hT.2 hok

theorem dvd_sum {u : Int} : ∀ {l : List Int}, (∀ x ∈ l, u ∣ x) → u ∣ l.sum
  | [], _ => Int.dvd_zero _
  | x :: l, h => by
    rw [List.sum_cons]
    exact Int.dvd_add (h x (List.mem_cons_self ..)) (dvd_sum fun y hy => h y (List.mem_cons_of_mem _ hy))

theorem total_whole {a : AggDenorm} {f : Col} (hf : a.agg = .sum f) {u : Nat} {db : Db} (h : ∀ o ∈ db.rows a.related.table, a.WholeRow u o) (k : Val) :
    (u : Int) ∣ a.total db k := by
  simp only [AggDenorm.total, hf]
  refine dvd_sum fun x hx => ?_
  obtain ⟨o, ho, rfl⟩ := List.mem_map.1 hx
  have := h o (List.mem_filter.1 ho).1 f hf
  cases hv : o f with
  | null => exact Int.dvd_zero _
  | text s => exact Int.dvd_zero _
  | int n => exact this n hv

/-- C80: a SumField over a column of decimals is exact after every history, on every database, as long as the numbers are whole and not negative: no statement is refused,
nothing is rounded. Missing: numbers that are not whole (`C80_violated_drift`, `C80_violated_save`), negative numbers (`C67_violated_negative`). -/
theorem C80_whole_partial {E : Engine} {D : List Denorm} {a : AggDenorm} {S : List (TableName × Col)} {f : Col} {u : Nat} (hE : Installed E D)
    (hD : AggDeclared E.backend D a) (hN : NoReentry E) (hS : IntClosed E.backend D S) (hm : (a.model.table, a.fieldname) ∈ S)
    (hF : ∀ dn ∈ D, ∀ c ∈ a.relevant, (a.related.table, c) ∉ dn.writes) (hf : a.agg = .sum f) (hu : 0 < u) (fuel : Nat) :
    ∀ (ss : List Stmt) (db : Db), AggLegalRun E a S fuel ss db → (∀ s ∈ ss, NonNegLegal a s) → (∀ s ∈ ss, WholeLegal a u s) →
      NeverTooLarge E u a fuel ss db → (∀ t, ∀ r ∈ db.rows t, IntRow S t r) → (∀ o ∈ db.rows a.related.table, a.NonNeg o) →
      (∀ o ∈ db.rows a.related.table, a.WholeRow u o) → AggOk a db →
      E.runStored (a.column E.backend u) fuel ss db = E.run fuel ss db ∧
      ∀ r ∈ (E.runStored (a.column E.backend u) fuel ss db).rows a.model.table, r a.fieldname =
        .int ((((E.runStored (a.column E.backend u) fuel ss db).rows a.related.table).filter fun o => decide (a.Selects (r a.model.pk) o)).map
          fun o => (o f).toInt).sum := by
  intro ss db hL hc hw hT hI hn hwh hok
  have key : ∀ (ss : List Stmt) (db : Db), AggLegalRun E a S fuel ss db → (∀ s ∈ ss, NonNegLegal a s) → (∀ s ∈ ss, WholeLegal a u s) →
      NeverTooLarge E u a fuel ss db → (∀ t, ∀ r ∈ db.rows t, IntRow S t r) → (∀ o ∈ db.rows a.related.table, a.NonNeg o) →
      (∀ o ∈ db.rows a.related.table, a.WholeRow u o) → AggOk a db → E.runStored (a.column E.backend u) fuel ss db = E.run fuel ss db := by
    intro ss
    induction ss with
    | nil => intros; rfl
    | cons s ss ih =>
      intro db hL hc hw hT hI hn hwh hok
      simp only [AggLegalRun] at hL
      simp only [NeverTooLarge] at hT
      have hwi : WholeInv E a f u (E.start s db) db := by
        refine wholeInv_start hf hL.1 (hw s (List.mem_cons_self ..)) (fun r hr n hn => ?_) hwh
        rw [hok r hr, Val.int.injEq] at hn
        exact hn ▸ total_whole hf hwh _
      have hx : E.execStored (a.column E.backend u) fuel s db = (E.exec fuel s db).mapError .db := by
        refine execStored_eq fun W db' hr => column_takes hu fun r hmem => ?_
        obtain ⟨n, h1, h2⟩ := count_reach hE hD hN hS hm hF (hc s (List.mem_cons_self ..)) hn hL.1 hI hok hr r hmem
        exact ⟨n, h1, h2, ((wholeInv_step hE hD hF hf).reach hr hwi).stored r hmem n h1, fun l hl => hT.1 W db' hr r hmem n l h1 hl⟩
      have hc' : ∀ s ∈ ss, NonNegLegal a s := fun s hs => hc s (List.mem_cons_of_mem _ hs)
      have hw' : ∀ s ∈ ss, WholeLegal a u s := fun s hs => hw s (List.mem_cons_of_mem _ hs)
      simp only [Engine.run, Engine.runStored, hx]
      cases he : E.exec fuel s db with
      | ok db' =>
        rw [he] at hL hT
        obtain ⟨h1, h2⟩ := agg_exec hE hD hN hS hm hL.1 hI hok he
        have h3 := nonneg_exec hE hD hN hS hm hF (hc s (List.mem_cons_self ..)) hn hL.1 hI hok (Engine.reach_of_drain _ _ _ _ he)
        have h4 := ((wholeInv_step hE hD hF hf).exec he hwi).summed
        refine ih db' hL.2 hc' hw' hT.2 h2 h3 (fun o ho f' hf' => ?_) h1
        rw [hf, Agg.sum.injEq] at hf'
        exact hf' ▸ h4 o ho
      | error e =>
        rw [he] at hL hT
        exact ih db hL.2 hc' hw' hT.2 hI hn hwh hok
  have h := key ss db hL hc hw hT hI hn hwh hok
  refine ⟨h, ?_⟩
  rw [h]
  exact C12_sum_partial hE hD hN hS hm hf fuel ss db hL hI hok

/-! ## Where it fails -/

theorem Engine.reach_all {E : Engine} {P : Db → Prop} : ∀ (n : Nat) (W : List Item) (db : Db), (∀ k, k ≤ n → P (E.walk k W db).2) →
    (E.walk n W db).1 = [] → ∀ W' db', E.Reach W db W' db' → P db'
  | n, [], db, h, _, W', db', hr => by
    generalize hV : ([] : List Item) = V at hr
    cases hr with
    | refl => exact h 0 (Nat.zero_le _)
    | step hs hr => exact absurd hV (by simp)
  | 0, it :: W, db, _, hend, _, _, _ => by simp [Engine.walk] at hend
  | n + 1, it :: W, db, h, hend, W', db', hr => by
    generalize hV : it :: W = V at hr
    cases hr with
    | refl => exact h 0 (Nat.zero_le _)
    | step hs hr =>
      simp only [List.cons.injEq] at hV
      obtain ⟨rfl, rfl⟩ := hV
      refine Engine.reach_all n _ _ (fun k hk => ?_) ?_ _ _ hr
      · have := h (k + 1) (by omega)
        simpa only [Engine.walk, hs] using this
      · simpa only [Engine.walk, hs] using hend

theorem refused_of {x : Except StoreErr Db} (h : (match x with
      | .error .refused => true
      | _ => false) = true) : x = .error .refused := by
  cases x with
  | ok _ => simp at h
  | error e => cases e <;> simp_all

namespace Demo
set_option maxRecDepth 100000

/-- A shop's bill: the forum's sum over prices in cents, nothing bought yet. -/
def billDb (n : Int) (d : Nat) : Db := ⟨fun t => if t = "forum" then [frow 1 "A" "" "" n] else if t = "score" then [] else [], [], d⟩

/-- Something for 0.50 has been bought. -/
def boughtDb (n : Int) (d : Nat) : Db :=
  ⟨fun t => if t = "forum" then [frow 1 "A" "" "" n] else if t = "score" then [srow 1 1 (.int 50)] else [], [], d⟩

def buy : Stmt := .insert "score" [srow 1 1 (.int 50)]
def giveBack : Stmt := .delete "score" (fun r => decide (r "id" = .int 1))

/-- Something for 0.50 is bought and given back, again and again. -/
def shopping : Nat → List Stmt
  | 0 => []
  | n + 1 => buy :: giveBack :: shopping n

theorem frow_set (n m : Int) : (frow 1 "A" "" "" n).set "post_count" (.int m) = frow 1 "A" "" "" m := by
  funext c
  by_cases h : c = "post_count"
  · subst h; rfl
  · simp only [Row.set, if_neg h, frow, row, List.lookup]
    repeat' split
    all_goals first | rfl | simp_all

theorem round_half (n : Nat) : roundTo 100 (100 * n + 50) = 100 * (n + 1) := by
  simp only [roundTo]
  rw [if_pos (by omega)]
  omega

theorem store_half {b : Backend} (hb : b ≠ .sqlite) {n : Nat} (hn : n + 1 ≤ 2147483647) :
    b.storePositive 100 (.int (100 * n + 50)) = some (.int (100 * (n + 1))) := by
  simp only [Backend.storePositive, if_neg hb, round_half]
  rw [if_neg (by omega)]
  cases b with
  | sqlite => exact absurd rfl hb
  | mysql => simp only [Backend.intLimit]; rw [if_neg (by omega)]
  | postgresql => simp only [Backend.intLimit]; rw [if_neg (by omega)]

/-- One row is rewritten, and no trigger follows. -/
theorem drainStored_upd {E : Engine} {κ : Store} {fr : Frame} {t : TableName} {i : Nat} {σ : Int → Row → Row} {n : Nat} {W : List Item} {db : Db}
    {old new : Row} (h1 : (db.rows t)[i]? = some old) (h2 : κ t (σ (E.rand db.draws) old) = some new) (h3 : E.fired fr ⟨t, .update, old, new⟩ = []) :
    E.drainStored κ (n + 1) (.write fr t [.upd i σ] :: W) db = E.drainStored κ n W { db.setRows t ((db.rows t).set i new) with draws := db.draws + 1 } := by
  simp [Engine.drainStored, Engine.stepStored, applyOpsStored, applyOpStored, h1, h2, h3]

theorem fired_forum (b : Backend) (fr : Frame) (o n : Row) : (sumEngine b).fired fr ⟨"forum", .update, o, n⟩ = [] := by
  have : ∀ tr ∈ (sumEngine b).triggers, tr.table ≠ "forum" := by cases b <;> decide
  rw [Engine.fired, List.filter_eq_nil_iff.2, List.flatMap_nil]
  intro tr htr
  simp [Engine.enters, this tr htr]

theorem column_forum {b : Backend} {r : Row} {n m : Int} (h : r "post_count" = .int n) (hs : b.storePositive 100 (.int n) = some (.int m)) :
    scoreSum.column b 100 "forum" r = some (r.set "post_count" (.int m)) := by
  have : scoreSum.column b 100 "forum" r = (b.storePositive 100 (r "post_count")).map fun v => r.set "post_count" v := rfl
  rw [this, h, hs]
  rfl

theorem bought {b : Backend} (hb : b ≠ .sqlite) {n : Nat} (hn : n + 1 ≤ 2147483647) (d : Nat) :
    (sumEngine b).execStored (scoreSum.column b 100) 100 buy (billDb (100 * n) d) = .ok (boughtDb (100 * (n + 1)) (d + 1)) := by
  have h1 : ∃ fr σ, (∀ x, σ x (frow 1 "A" "" "" (100 * n)) = (frow 1 "A" "" "" (100 * n)).set "post_count" (.int (100 * n + 50))) ∧
      (sumEngine b).execStored (scoreSum.column b 100) 100 buy (billDb (100 * n) d) =
        (sumEngine b).drainStored (scoreSum.column b 100) 98 [.write fr "forum" [.upd 0 σ]] ((billDb (100 * n) d).setRows "score" [srow 1 1 (.int 50)]) := by
    cases b
    · exact absurd rfl hb
    · exact ⟨_, _, fun _ => rfl, rfl⟩
    · exact ⟨_, _, fun _ => rfl, rfl⟩
  obtain ⟨fr, σ, h2, h3⟩ := h1
  rw [h3, drainStored_upd (old := frow 1 "A" "" "" (100 * n)) rfl (by rw [h2]; exact column_forum rfl (store_half hb hn)) (fired_forum ..)]
  simp only [frow_set, Engine.drainStored]
  congr 1
  simp only [boughtDb, billDb, Db.setRows, Db.mk.injEq, and_true]
  funext t
  by_cases e1 : t = "forum"
  · subst e1; rfl
  · simp [e1]

theorem givenBack {b : Backend} (hb : b ≠ .sqlite) {n : Nat} (hn : n + 1 ≤ 2147483647) (d : Nat) :
    (sumEngine b).execStored (scoreSum.column b 100) 100 giveBack (boughtDb (100 * (n + 1)) d) = .ok (billDb (100 * (n + 1)) (d + 1)) := by
  have h1 : ∃ fr σ, (∀ x, σ x (frow 1 "A" "" "" (100 * (n + 1))) = (frow 1 "A" "" "" (100 * (n + 1))).set "post_count" (.int (100 * (n + 1) - 50))) ∧
      (sumEngine b).execStored (scoreSum.column b 100) 100 giveBack (boughtDb (100 * (n + 1)) d) =
        (sumEngine b).drainStored (scoreSum.column b 100) 98 [.write fr "forum" [.upd 0 σ]] ((boughtDb (100 * (n + 1)) d).setRows "score" []) := by
    cases b
    · exact absurd rfl hb
    · exact ⟨_, _, fun _ => rfl, rfl⟩
    · exact ⟨_, _, fun _ => rfl, rfl⟩
  obtain ⟨fr, σ, h2, h3⟩ := h1
  have hv : (100 * (n + 1) - 50 : Int) = 100 * n + 50 := by omega
  rw [h3, drainStored_upd (old := frow 1 "A" "" "" (100 * (n + 1))) rfl (by rw [h2, hv]; exact column_forum rfl (store_half hb hn)) (fired_forum ..)]
  simp only [frow_set, Engine.drainStored]
  congr 1
  simp only [boughtDb, billDb, Db.setRows, Db.mk.injEq, and_true]
  funext t
  by_cases e1 : t = "forum"
  · subst e1; rfl
  · by_cases e2 : t = "score" <;> simp [e1, e2]

theorem drifted {b : Backend} (hb : b ≠ .sqlite) : ∀ (k n d : Nat), n + k ≤ 2147483647 →
    (sumEngine b).runStored (scoreSum.column b 100) 100 (shopping k) (billDb (100 * n) d) = billDb (100 * (n + k : Nat)) (d + 2 * k)
  | 0, n, d, _ => rfl
  | k + 1, n, d, h => by
    simp only [shopping, Engine.runStored, bought hb (show n + 1 ≤ 2147483647 by omega), givenBack hb (show n + 1 ≤ 2147483647 by omega)]
    have := drifted hb k (n + 1) (d + 1 + 1) (by omega)
    rw [show (100 * (n + 1) : Int) = 100 * ((n + 1 : Nat) : Int) by simp, this]
    rw [show n + 1 + k = n + (k + 1) by omega, show d + 1 + 1 + 2 * k = d + 2 * (k + 1) by omega]

/-- C80 is violated on PostgreSQL and MySQL: the sum is rounded each time it changes, and the errors add up without limit. Something for 0.50 is bought and given back `N`
times: nothing is there in the end, as in the beginning, and the sum is `N`. -/
theorem C80_violated_drift (b : Backend) (hb : b ≠ .sqlite) (N : Nat) (hN : N ≤ 2147483647) : ∃ (E : Engine) (D : List Denorm) (a : AggDenorm) (db : Db) (ss : List Stmt),
    E.backend = b ∧ Installed E D ∧ AggDeclared E.backend D a ∧ a.agg = .sum "points" ∧ AggOk a db ∧ FitsColumn b 100 a db ∧
    (∀ s ∈ ss, NonNegLegal a s) ∧ ((E.runStored (a.column b 100) 100 ss db).rows a.related.table) = [] ∧
    ((E.runStored (a.column b 100) 100 ss db).rows a.model.table).map (fun r => r a.fieldname) = [.int (100 * N)] := by
  have h := drifted hb N 0 0 (by omega)
  simp only [Nat.zero_add] at h
  refine ⟨sumEngine b, [.aggregate scoreSum], scoreSum, billDb (100 * (0 : Nat)) 0, shopping N, rfl, rfl, ad_sum b, rfl, by unfold AggOk; decide, ?_, ?_, ?_, ?_⟩
  · intro r hr
    refine ⟨0, by revert r; decide, by decide, by decide, ?_⟩
    intro l hl
    cases b <;> simp only [Backend.intLimit, Option.some.injEq, reduceCtorEq] at hl <;> omega
  · clear h hN
    induction N with
    | zero => intro s hs; simp [shopping] at hs
    | succ N ih =>
      intro s hs
      simp only [shopping, List.mem_cons] at hs
      rcases hs with rfl | rfl | hs
      · intro _ r hr f hf
        simp only [List.mem_singleton] at hr
        simp only [scoreSum, Agg.sum.injEq] at hf
        subst hr hf
        decide
      · trivial
      · exact ih s hs
  · rw [h]; rfl
  · rw [h]; rfl

/-- What `save()` of the forum does to the sum: `pre_save` reads the stored number (fields.py:159-178), `IntegerField.get_prep_value` makes it an integer by `int()`, which
cuts off the decimals, and the UPDATE writes it back. -/
def saveSum (u : Nat) : Stmt := .update "forum" (fun r => decide (r "id" = .int 1)) fun _ r =>
  match r "post_count" with
  | .int n => r.set "post_count" (.int (n.tdiv u * u))
  | _ => r

/-- C80 is violated on sqlite: the column takes 0.50 as it is, and the sum is right; save() of the instance (flush() does it, too) cuts it to 0. From then on the thing
that was bought cannot be given back: the statement would make the sum negative and is refused. -/
theorem C80_violated_save : ∃ (E : Engine) (D : List Denorm) (a : AggDenorm) (db db1 db2 : Db), E.backend = .sqlite ∧ Installed E D ∧ AggDeclared E.backend D a ∧
    AggOk a db ∧ E.execStored (a.column .sqlite 100) 100 buy db = .ok db1 ∧ AggOk a db1 ∧
    E.execStored (a.column .sqlite 100) 100 (saveSum 100) db1 = .ok db2 ∧ ¬ AggOk a db2 ∧
    E.execStored (a.column .sqlite 100) 100 giveBack db2 = .error .refused := by
  have h1 : ∃ db1, (sumEngine .sqlite).execStored (scoreSum.column .sqlite 100) 100 buy (billDb 0 0) = .ok db1 ∧ (AggOk scoreSum db1 ∧
      ∃ db2, (sumEngine .sqlite).execStored (scoreSum.column .sqlite 100) 100 (saveSum 100) db1 = .ok db2 ∧ (¬ AggOk scoreSum db2 ∧
      (sumEngine .sqlite).execStored (scoreSum.column .sqlite 100) 100 giveBack db2 = .error .refused)) :=
    ⟨_, rfl, by unfold AggOk; decide, _, rfl, by unfold AggOk; decide, refused_of (by decide)⟩
  obtain ⟨db1, h1, h2, db2, h3, h4, h5⟩ := h1
  exact ⟨sumEngine .sqlite, [.aggregate scoreSum], scoreSum, billDb 0 0, db1, db2, rfl, rfl, ad_sum .sqlite, by unfold AggOk; decide, h1, h2, h3, h4, h5⟩

/-- C12 and C67 with the column's type: a related row with NULL in the summed column cannot be inserted at all, although that column allows it: the sum would become NULL,
and the SumField's column is NOT NULL. -/
theorem C67_violated_null (b : Backend) : ∃ (E : Engine) (D : List Denorm) (a : AggDenorm) (db : Db), E.backend = b ∧ Installed E D ∧ AggDeclared E.backend D a ∧
    AggOk a db ∧ FitsColumn b 1 a db ∧ E.execStored (a.column b 1) 100 (.insert a.related.table [srow 3 1 .null]) db = .error .refused := by
  refine ⟨sumEngine b, [.aggregate scoreSum], scoreSum, sumDb, rfl, rfl, ad_sum b, by unfold AggOk; decide, ?_, refused_of (by cases b <;> decide)⟩
  intro r hr
  refine ⟨5, by revert r; decide, by decide, by decide, ?_⟩
  intro l hl
  cases b <;> simp only [Backend.intLimit, Option.some.injEq, reduceCtorEq] at hl <;> omega

/-- Two large scores. -/
def largeDb (b : Backend) : Db :=
  ⟨fun t => if t = "forum" then [frow 1 "A" "" "" (if b = .mysql then 4294967294 else 2147483647)]
    else if t = "score" then [srow 1 1 (.int 2147483647), srow 2 1 (.int (if b = .mysql then 2147483647 else 0))] else [], [], 0⟩

/-- The first score gets smaller by one. -/
def oneLess : Stmt := .update "score" (fun r => decide (r "id" = .int 1)) (fun _ r => r.set "points" (.int 2147483646))

/-- C67 is violated at the upper end, too, on PostgreSQL and MySQL: the sum fits the column before and would fit afterwards, where it is smaller by one; but the new number
is added before the old one is subtracted, and the statement is refused. -/
theorem C67_violated_large (b : Backend) (hb : b ≠ .sqlite) : ∃ (E : Engine) (D : List Denorm) (a : AggDenorm) (db : Db) (s : Stmt) (db' : Db), E.backend = b ∧
    Installed E D ∧ AggDeclared E.backend D a ∧ AggOk a db ∧ FitsColumn b 1 a db ∧ E.exec 100 s db = .ok db' ∧ AggOk a db' ∧ FitsColumn b 1 a db' ∧
    E.execStored (a.column b 1) 100 s db = .error .refused := by
  have fits : ∀ {n : Int} {db : Db}, 0 ≤ n → (∀ l, b.intLimit = some l → n ≤ l * (1 : Nat)) → (db.rows "forum").map (fun r => r "post_count") = [.int n] →
      FitsColumn b 1 scoreSum db := by
    intro n db h0 hl h r hr
    have : r "post_count" ∈ (db.rows "forum").map (fun r => r "post_count") := List.mem_map.2 ⟨r, hr, rfl⟩
    rw [h] at this
    exact ⟨n, List.mem_singleton.1 this, h0, ⟨n, by simp⟩, hl⟩
  have lim : ∀ n : Int, n ≤ 2147483647 → ∀ l, b.intLimit = some l → n ≤ l * (1 : Nat) := by
    intro n hn l hl
    cases b <;> simp only [Backend.intLimit, Option.some.injEq, reduceCtorEq] at hl <;> omega
  have hl : ∀ l, b.intLimit = some l → (if b = .mysql then 4294967294 else 2147483647 : Int) ≤ l * (1 : Nat) := by
    intro l hl
    cases b <;> simp only [Backend.intLimit, Option.some.injEq, reduceCtorEq] at hl <;> subst hl <;> decide
  have hl' : ∀ l, b.intLimit = some l → (if b = .mysql then 4294967293 else 2147483646 : Int) ≤ l * (1 : Nat) := by
    intro l hl
    cases b <;> simp only [Backend.intLimit, Option.some.injEq, reduceCtorEq] at hl <;> subst hl <;> decide
  obtain ⟨db', h, h1, h2⟩ : ∃ db', (sumEngine b).exec 100 oneLess (largeDb b) = .ok db' ∧
      ((∀ r ∈ db'.rows scoreSum.model.table, r scoreSum.fieldname = .int (scoreSum.total db' (r scoreSum.model.pk))) ∧
        (db'.rows "forum").map (fun r => r "post_count") = [.int (if b = .mysql then 4294967293 else 2147483646)]) :=
    ok_of (by cases b <;> decide +kernel)
  exact ⟨sumEngine b, [.aggregate scoreSum], scoreSum, largeDb b, oneLess, db', rfl, rfl, ad_sum b, by unfold AggOk; cases b <;> decide +kernel,
    fits (by split <;> decide) hl (by cases b <;> rfl), h, h1, fits (by split <;> decide) hl' h2,
    refused_of (by cases b with
      | sqlite => exact absurd rfl hb
      | mysql => decide +kernel
      | postgresql => decide +kernel)⟩

/-! ## The hypotheses are met -/

/-- Scores of 3.00 and 10.00 where 2.00 and 4.00 were. -/
def euroDb : Db := ⟨fun t => if t = "forum" then [frow 1 "A" "" "" 600] else if t = "score" then [srow 1 1 (.int 200), srow 2 1 (.int 400)] else [], [], 0⟩

def euroHistory : List Stmt :=
  [.insert "score" [srow 3 1 (.int 1000)], .update "score" (fun r => decide (r "id" = .int 1)) (fun _ r => r.set "points" (.int 300))]

theorem euro_update (db : Db) : AggLegal scoreSum sumCols db (.update "score" (fun r => decide (r "id" = .int 1)) (fun _ r => r.set "points" (.int 300))) := by
  refine ⟨fun x r _ c hc => ?_, fun h => absurd h (by decide)⟩
  simp only [sumCols, List.mem_cons, Prod.mk.injEq, List.not_mem_nil, or_false] at hc
  rcases hc with ⟨h, _⟩ | ⟨_, rfl⟩
  · exact absurd h (by decide)
  · exact ⟨300, by simp [Row.set]⟩

theorem euro_insert (db : Db) : AggLegal scoreSum sumCols db (.insert "score" [srow 3 1 (.int 1000)]) := by
  refine ⟨fun r hr => ?_, fun h => absurd h (by decide)⟩
  simp only [List.mem_singleton] at hr
  subst hr
  exact intRow_of (by decide)

/-- The numbers in the column on the way. -/
def sumsBelow (l : Int) (db : Db) : Bool := (db.rows "forum").all fun r => match r "post_count" with
  | .int n => decide (n ≤ l)
  | _ => true

theorem below_of {l : Int} {db : Db} (h : sumsBelow l db = true) : ∀ r ∈ db.rows "forum", ∀ n, r "post_count" = .int n → n ≤ l := by
  intro r hr n hn
  have := List.all_eq_true.1 h r hr
  simpa [hn] using this

theorem notTooLarge {E : Engine} {u : Nat} (hu : 0 < u) {s : Stmt} {db : Db} (h1 : ∀ k, k ≤ 12 → sumsBelow 100000 (E.walk k (E.start s db) db).2 = true)
    (h2 : (E.walk 12 (E.start s db) db).1 = []) : ∀ W db', E.Reach (E.start s db) db W db' → ∀ r ∈ db'.rows "forum", ∀ n l, r "post_count" = .int n →
      E.backend.intLimit = some l → n ≤ l * u := by
  intro W db' hr r hm n l hn hl
  have h3 := below_of (Engine.reach_all (P := fun db => sumsBelow 100000 db = true) 12 _ _ h1 h2 W db' hr) r hm n hn
  have hb : 100000 ≤ l := by
    cases hE : E.backend <;> rw [hE] at hl <;> simp only [Backend.intLimit, Option.some.injEq, reduceCtorEq] at hl <;> omega
  have : l * 1 ≤ l * (u : Int) := Int.mul_le_mul_of_nonneg_left (by omega) (by omega)
  omega

theorem euro_nonneg : ∀ s ∈ euroHistory, NonNegLegal scoreSum s ∧ WholeLegal scoreSum 100 s := by
  intro s hs
  simp only [euroHistory, List.mem_cons, List.not_mem_nil, or_false] at hs
  rcases hs with rfl | rfl
  · refine ⟨fun _ r hr f hf => ?_, fun _ r hr f hf n hn => ?_⟩ <;> simp only [List.mem_singleton] at hr <;> simp only [scoreSum, Agg.sum.injEq] at hf <;> subst hr hf
    · decide
    · cases (show Val.int 1000 = .int n from hn)
      decide
  · refine ⟨fun _ x r _ f hf => ?_, fun _ x r _ f hf n hn => ?_⟩ <;> simp only [scoreSum, Agg.sum.injEq] at hf <;> subst hf
    · simp [Row.set, Val.toInt]
    · simp only [Row.set, if_true, Val.int.injEq] at hn
      subst hn
      decide

theorem euro_ints : ∀ t, ∀ r ∈ euroDb.rows t, IntRow sumCols t r := by
  intro t r hr
  by_cases h1 : t = "forum"
  · subst h1; exact intRow_of (by revert r; decide)
  · by_cases h2 : t = "score"
    · subst h2; exact intRow_of (by revert r; decide)
    · simp [euroDb, h1, h2] at hr

/-- `C80_whole_partial`: whole prices with two decimals; the sum goes from 6.00 to 17.00. -/
example (b : Backend) : (sumEngine b).runStored (scoreSum.column b 100) 100 euroHistory euroDb = (sumEngine b).run 100 euroHistory euroDb ∧
    (((sumEngine b).run 100 euroHistory euroDb).rows "forum").map (fun r => r "post_count") = [.int 1700] := by
  refine ⟨(C80_whole_partial (E := sumEngine b) (D := [.aggregate scoreSum]) (f := "points") (u := 100) rfl (ad_sum b) (sum_noReentry b) (sum_closed b) (by decide)
    (by decide) rfl (by decide) 100 euroHistory euroDb (by cases b <;> exact ⟨euro_insert _, euro_update _, trivial⟩) (fun s hs => (euro_nonneg s hs).1)
    (fun s hs => (euro_nonneg s hs).2) ?_ euro_ints ?_ ?_ (by unfold AggOk; decide)).1, by cases b <;> decide⟩
  · cases b <;> exact ⟨notTooLarge (by decide) (by decide +kernel) (by decide +kernel), notTooLarge (by decide) (by decide +kernel) (by decide +kernel), trivial⟩
  · intro o ho f hf
    simp only [scoreSum, Agg.sum.injEq] at hf
    subst hf
    revert o
    decide
  · intro o ho f hf n hn
    simp only [scoreSum, Agg.sum.injEq] at hf
    subst hf
    have : o ∈ [srow 1 1 (.int 200), srow 2 1 (.int 400)] := ho
    simp only [List.mem_cons, List.not_mem_nil, or_false] at this
    rcases this with rfl | rfl
    · cases (show Val.int 200 = .int n from hn)
      decide
    · cases (show Val.int 400 = .int n from hn)
      decide

/-- `C67_count_stored`: posts leave and enter the filter. -/
example (b : Backend) : (goodEngine b).runStored (goodCount.column b 1) 100 goodHistory goodDb = (goodEngine b).run 100 goodHistory goodDb :=
  C67_count_stored (E := goodEngine b) (D := [.aggregate goodCount]) rfl (ad_good b) (good_noReentry b) rfl (by decide) 100 goodHistory goodDb
    (by
      have upd : ∀ db w σ, CountLegal goodCount db (.update "post" w σ) := fun _ _ _ h => absurd h (by decide)
      cases b <;> exact ⟨upd _ _ _, upd _ _ _, upd _ _ _, trivial⟩)
    (by
      cases b <;> exact ⟨notTooLarge (by decide) (by decide +kernel) (by decide +kernel), notTooLarge (by decide) (by decide +kernel) (by decide +kernel),
        notTooLarge (by decide) (by decide +kernel) (by decide +kernel), trivial⟩)
    (by unfold AggOk; decide)

theorem debt_fits (b : Backend) : FitsColumn b 1 scoreSum debtDb := by
  intro r hr
  refine ⟨1, by revert r; decide, by decide, by decide, fun l hl => ?_⟩
  cases b <;> simp only [Backend.intLimit, Option.some.injEq, reduceCtorEq] at hl <;> omega

/-- `C67_refused_iff`: the statement of `C67_violated_negative` is refused. -/
example (b : Backend) : RefusedByColumn (sumEngine b) scoreSum lessDebt debtDb := by
  obtain ⟨x, hx, _⟩ : ∃ x, (sumEngine b).exec 100 lessDebt debtDb = .ok x ∧ True := ok_of (by cases b <;> decide)
  exact (C67_refused_iff (E := sumEngine b) (debt_fits b) hx).1 (refused_of (by cases b <;> decide))

end Demo
end Denorm
