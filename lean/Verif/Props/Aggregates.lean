import Verif.Lemmas.AggOrder
import Verif.DemoFacts
/-!
# CountField and SumField: C10, C11, C12, C14
-/
namespace Denorm

theorem countLegal_agg {a : AggDenorm} {db : Db} {s : Stmt} (h : CountLegal a db s) : AggLegal a [(a.model.table, a.fieldname)] db s := by
  cases s with
  | insert t rs =>
    refine ⟨fun r hr c hc => ?_, h⟩
    simp only [List.mem_singleton, Prod.mk.injEq] at hc
    exact ⟨0, by rw [hc.2]; exact ((h hc.1).1 r hr).1⟩
  | update t w σ =>
    refine ⟨fun x r hr c hc => ?_, h⟩
    have hc' := hc
    simp only [List.mem_singleton, Prod.mk.injEq] at hc
    rw [hc.2, (h hc.1 x r).2, ← hc.2]
    exact hr c hc'
  | delete t w => trivial

theorem count_closed {b : Backend} {D : List Denorm} {a : AggDenorm} (hD : AggDeclared b D a) (hc : a.agg = .count) :
    IntClosed b D [(a.model.table, a.fieldname)] := by
  intro a' h1 h2
  have := hD.only _ h1 (by simpa [Denorm.writes, eq_comm] using h2)
  simp only [Denorm.aggregate.injEq] at this
  subst this
  exact ⟨hD.covered, fun f hf => by rw [hc] at hf; simp at hf⟩

theorem aggOk_ints {a : AggDenorm} {db : Db} (h : AggOk a db) : ∀ t, ∀ r ∈ db.rows t, IntRow [(a.model.table, a.fieldname)] t r := by
  intro t r hr c hc
  simp only [List.mem_singleton, Prod.mk.injEq] at hc
  obtain ⟨rfl, rfl⟩ := hc
  exact ⟨_, h r hr⟩

/-- **C11.** With the triggers of the declarations installed, a CountField with any `filter=` and `exclude=` holds, after every history
of statements, the number of related rows that `filter(**filter).exclude(**exclude)` selects: whatever columns updates change, and
whether or not the filtered columns are NULL. -/
theorem C11_filtered_count {E : Engine} {D : List Denorm} {a : AggDenorm} (hE : Installed E D) (hD : AggDeclared E.backend D a)
    (hN : NoReentry E) (hc : a.agg = .count) (fuel : Nat) : ∀ (ss : List Stmt) (db : Db), CountLegalRun E a fuel ss db → AggOk a db →
    ∀ r ∈ (E.run fuel ss db).rows a.model.table, r a.fieldname =
      .int (((E.run fuel ss db).rows a.related.table).filter fun o => decide (a.Selects (r a.model.pk) o)).length
  | [], db, _, hok => by
    intro r hr
    rw [hok r hr, AggDenorm.total, hc]
    rfl
  | s :: ss, db, hL, hok => by
    simp only [CountLegalRun] at hL
    simp only [Engine.run]
    cases he : E.exec fuel s db with
    | ok db' =>
      rw [he] at hL
      exact C11_filtered_count hE hD hN hc fuel ss db' hL.2
        (agg_exec hE hD hN (count_closed hD hc) (by simp) (countLegal_agg hL.1) (aggOk_ints hok) hok he).1
    | error e =>
      rw [he] at hL
      exact C11_filtered_count hE hD hN hc fuel ss db hL.2 hok

theorem selects_plain {a : AggDenorm} (h1 : a.filter = []) (h2 : a.exclude = []) (k : Val) (o : Row) :
    a.Selects k o ↔ Val.sqlEq (o a.fk.column) k = true := by
  simp only [AggDenorm.Selects, h1, h2, Val.sqlEq_iff, List.not_mem_nil, false_implies, implies_true, true_or, and_true]
  constructor
  · rintro ⟨e, h⟩; exact ⟨e, by rw [e]; exact h⟩
  · rintro ⟨e, h⟩; exact ⟨e, by rw [← e]; exact h⟩

/-- **C10.** With the triggers of the declarations installed, every CountField holds the number of related rows after every history of
statements, without flush(). -/
theorem C10_count {E : Engine} {D : List Denorm} {a : AggDenorm} (hE : Installed E D) (hD : AggDeclared E.backend D a)
    (hN : NoReentry E) (hc : a.agg = .count) (hf : a.filter = []) (hx : a.exclude = []) (fuel : Nat) (ss : List Stmt) (db : Db)
    (hL : CountLegalRun E a fuel ss db) (h0 : CountIsRight a db) : CountIsRight a (E.run fuel ss db) := by
  have plain : ∀ (k : Val) (rows : List Row), (rows.filter fun o => decide (a.Selects k o)).length =
      rows.countP fun o => Val.sqlEq (o a.fk.column) k := by
    intro k rows
    rw [List.countP_eq_length_filter]
    congr 2
    funext o
    rw [Bool.eq_iff_iff, decide_eq_true_eq, selects_plain hf hx]
  have hok : AggOk a db := by
    intro r hr
    rw [h0 r hr, AggDenorm.total, hc]
    simp only [plain]
  intro r hr
  rw [C11_filtered_count hE hD hN hc fuel ss db hL hok r hr, plain]

/-- **C12, partial.** A SumField holds the sum of the summed column over the selected related rows after every history in which the
summed column always holds integers. `S` lists the columns that hold integers: the SumField, the column it sums and, if that column is
itself maintained by triggers, what these sum in turn. Missing: NULL values of the summed column, for which the claim fails
(`C12_violated_null`). -/
theorem C12_sum_partial {E : Engine} {D : List Denorm} {a : AggDenorm} {S : List (TableName × Col)} (hE : Installed E D)
    (hD : AggDeclared E.backend D a) (hN : NoReentry E) (hS : IntClosed E.backend D S) (hm : (a.model.table, a.fieldname) ∈ S) {f : Col}
    (hf : a.agg = .sum f) (fuel : Nat) : ∀ (ss : List Stmt) (db : Db), AggLegalRun E a S fuel ss db →
    (∀ t, ∀ r ∈ db.rows t, IntRow S t r) → AggOk a db →
    ∀ r ∈ (E.run fuel ss db).rows a.model.table, r a.fieldname = .int ((((E.run fuel ss db).rows a.related.table).filter
      fun o => decide (a.Selects (r a.model.pk) o)).map fun o => (o f).toInt).sum
  | [], db, _, _, hok => by
    intro r hr
    rw [hok r hr, AggDenorm.total, hf]
    rfl
  | s :: ss, db, hL, hI, hok => by
    simp only [AggLegalRun] at hL
    simp only [Engine.run]
    cases he : E.exec fuel s db with
    | ok db' =>
      rw [he] at hL
      obtain ⟨h1, h2⟩ := agg_exec hE hD hN hS hm hL.1 hI hok he
      exact C12_sum_partial hE hD hN hS hm hf fuel ss db' hL.2 h2 h1
    | error e =>
      rw [he] at hL
      exact C12_sum_partial hE hD hN hS hm hf fuel ss db hL.2 hI hok

theorem count_run {E : Engine} {D : List Denorm} {a : AggDenorm} (hE : Installed E D) (hD : AggDeclared E.backend D a)
    (hN : NoReentry E) (hc : a.agg = .count) (fuel : Nat) (ss : List Stmt) (db : Db) (hL : CountLegalRun E a fuel ss db)
    (hok : AggOk a db) : AggOk a (E.run fuel ss db) := by
  intro r hr
  rw [C11_filtered_count hE hD hN hc fuel ss db hL hok r hr, AggDenorm.total, hc]

/-- **C14.** After every history and at every moment of the statement that follows (after each single UPDATE its triggers issue) every
CountField is at least zero. Triggers do not write the columns `filter=` and `exclude=` look at. -/
theorem C14_nonnegative {E : Engine} {D : List Denorm} {a : AggDenorm} (hE : Installed E D) (hD : AggDeclared E.backend D a)
    (hN : NoReentry E) (hc : a.agg = .count) (hF : ∀ dn ∈ D, ∀ c ∈ (a.filter ++ a.exclude).map Cond.col, (a.related.table, c) ∉ dn.writes)
    (fuel : Nat) (ss : List Stmt) (db : Db) (hL : CountLegalRun E a fuel ss db) (hok : AggOk a db) (s : Stmt)
    (hs : CountLegal a (E.run fuel ss db) s) (W : List Item) (db' : Db)
    (hr : E.Reach (E.start s (E.run fuel ss db)) (E.run fuel ss db) W db') :
    ∀ r ∈ db'.rows a.model.table, ∃ n, r a.fieldname = .int n ∧ 0 ≤ n := by
  have hok' := count_run hE hD hN hc fuel ss db hL hok
  have hR : RelevantFree D a := by
    intro dn hdn c hcm
    simp only [AggDenorm.relevant, hc, List.append_nil, List.mem_cons] at hcm
    rcases hcm with rfl | hcm
    · exact hD.fk dn hdn
    · exact hF dn hdn c hcm
  exact count_reach hE hD hN (count_closed hD hc) (by simp) hR (nonNegLegal_of_count hc s) (fun o _ => nonNeg_of_count hc o) (countLegal_agg hs)
    (aggOk_ints hok') hok' hr

/-! ## The hypotheses can be met, and the claims are not empty -/

namespace Demo
set_option maxRecDepth 100000

theorem ad_postCount (b : Backend) : AggDeclared b decls postCount where
  declared := by simp [decls]
  covered := fun g hg => covered_of_agree (agree b) (List.mem_flatMap.2 ⟨.aggregate postCount, by simp [decls], hg⟩)
  only := by decide
  pk := by decide
  fk := by decide
  watched := by decide
  fkcol := rfl
  conds := by simp [postCount]

/-- Insert two posts (one without forum), move all posts of forum 1 to forum 2, delete one, insert a forum. -/
def countHistory : List Stmt :=
  [.insert "post" [prow 3 1 "z" "A" 0, (prow 4 1 "n" "" 0).set "forum_id" .null],
   .update "post" (fun r => decide (r "forum_id" = .int 1)) (fun _ r => r.set "forum_id" (.int 2)),
   .delete "post" (fun r => decide (r "id" = .int 2)),
   .insert "forum" [frow 3 "C" "" "" 0]]

theorem countHistory_legal (b : Backend) : CountLegalRun (engine b) postCount 100 countHistory db := by
  have upd : ∀ db, CountLegal postCount db (.update "post" (fun r => decide (r "forum_id" = .int 1)) (fun _ r => r.set "forum_id" (.int 2))) :=
    fun _ h => absurd h (by decide)
  have ins : ∀ db rs, CountLegal postCount db (.insert "post" rs) := fun _ _ h => absurd h (by decide)
  refine ⟨ins _ _, ?_⟩
  have del : ∀ db w, CountLegal postCount db (.delete "post" w) := fun _ _ => trivial
  cases b <;> refine ⟨upd _, del _ _, fun _ => ⟨?_, fun h => absurd h (by decide)⟩, trivial⟩ <;> decide

/-- On every backend the history is legal, counts start right, and it ends with the counts 0, 2, 0. -/
example (b : Backend) : CountIsRight postCount db ∧ CountIsRight postCount ((engine b).run 100 countHistory db) ∧
    (((engine b).run 100 countHistory db).rows "forum").map (fun r => r "post_count") = [.int 0, .int 2, .int 0] := by
  have h0 : CountIsRight postCount db := by unfold CountIsRight; decide
  exact ⟨h0, C10_count (installed b) (ad_postCount b) (noReentry b) rfl rfl rfl 100 countHistory db (countHistory_legal b) h0,
    by cases b <;> decide⟩

/-- A CountField with filter and exclude: posts with a title greater than "a" that are not titled "y". (On sqlite the class statement refuses `filter=`, see
`C11_sqlite_refused`; what is shown for sqlite below is what the triggers would do.) -/
def goodCount : AggDenorm := { postCount with filter := [⟨"title", .gt, .text "a"⟩], exclude := [⟨"title", .exact, .text "y"⟩] }

/-- `SumField('post_set', field='score')` on a table of its own. -/
def scored : Model :=
  { repr := "<class 'app.Score'>", appLabel := "app", name := "Score", table := "score", pkTable := "score", pk := "id", ct := 7,
    fields := [fld "id", postForum, fld "points"] }
def scoreSum : AggDenorm := { model := forum, fieldname := "post_count", related := scored, fk := postForum, agg := .sum "points" }
def srow (id forum : Int) (p : Val) : Row := row [("id", .int id), ("forum_id", .int forum), ("points", p)]

def goodEngine (b : Backend) : Engine := ⟨b, installedTriggers b [.aggregate goodCount], fun _ => 0⟩
def sumEngine (b : Backend) : Engine := ⟨b, installedTriggers b [.aggregate scoreSum], fun _ => 0⟩

theorem ad_good (b : Backend) : AggDeclared b [.aggregate goodCount] goodCount where
  declared := by simp
  covered := by cases b <;> decide
  only := by simp
  pk := by decide
  fk := by decide
  watched := by decide
  fkcol := rfl
  conds := by decide

theorem ad_sum (b : Backend) : AggDeclared b [.aggregate scoreSum] scoreSum where
  declared := by simp
  covered := by cases b <;> decide
  only := by simp
  pk := by decide
  fk := by decide
  watched := by decide
  fkcol := rfl
  conds := by decide

theorem good_noReentry (b : Backend) : NoReentry (goodEngine b) := by
  apply noReentry_of (fun n => if n.endsWith "forum" then 0 else 1)
  cases b <;> decide

theorem sum_noReentry (b : Backend) : NoReentry (sumEngine b) := by
  apply noReentry_of (fun n => if n.endsWith "forum" then 0 else 1)
  cases b <;> decide

/-- Two posts titled "x" and "y" and one with NULL title; only the first counts. -/
def goodDb : Db :=
  ⟨fun t =>
    if t = "forum" then [frow 1 "A" "" "" 1, frow 2 "B" "" "" 0]
    else if t = "post" then [prow 1 1 "x" "A" 0, prow 2 1 "y" "A" 0, (prow 3 1 "" "" 0).set "title" .null]
    else [], [], 0⟩

/-- Move a row into the filter, one out of it into NULL. -/
def goodHistory : List Stmt :=
  [.update "post" (fun r => decide (r "id" = .int 3)) (fun _ r => r.set "title" (.text "b")),
   .update "post" (fun r => decide (r "id" = .int 2)) (fun _ r => (r.set "title" (.text "c")).set "forum_id" (.int 2)),
   .update "post" (fun r => decide (r "id" = .int 1)) (fun _ r => r.set "title" .null)]

/-- The filtered count goes up for row 3, moves to forum 2 for row 2, and goes down for row 1. -/
example (b : Backend) : AggOk goodCount goodDb ∧ CountLegalRun (goodEngine b) goodCount 100 goodHistory goodDb ∧
    (((goodEngine b).run 100 goodHistory goodDb).rows "forum").map (fun r => r "post_count") = [.int 1, .int 1] := by
  refine ⟨by unfold AggOk; decide, ?_, by cases b <;> decide⟩
  have upd : ∀ db w σ, CountLegal goodCount db (.update "post" w σ) := fun _ _ _ h => absurd h (by decide)
  cases b <;> exact ⟨upd _ _ _, upd _ _ _, upd _ _ _, trivial⟩

/-- C11 and C14 apply to it. -/
example (b : Backend) : AggOk goodCount ((goodEngine b).run 100 goodHistory goodDb) :=
  count_run (E := goodEngine b) (D := [.aggregate goodCount]) (show Installed _ _ from rfl) (ad_good b) (good_noReentry b) rfl 100 goodHistory goodDb
    (by
      have upd : ∀ db w σ, CountLegal goodCount db (.update "post" w σ) := fun _ _ _ h => absurd h (by decide)
      cases b <;> exact ⟨upd _ _ _, upd _ _ _, upd _ _ _, trivial⟩)
    (by unfold AggOk; decide)

example : ∀ dn ∈ [Denorm.aggregate goodCount], ∀ c ∈ (goodCount.filter ++ goodCount.exclude).map Cond.col,
    (goodCount.related.table, c) ∉ dn.writes := by decide

/-- The columns that hold integers for the sum. -/
def sumCols : List (TableName × Col) := [("forum", "post_count"), ("score", "points")]

theorem sum_closed (b : Backend) : IntClosed b [.aggregate scoreSum] sumCols := by
  intro a h _
  simp only [List.mem_singleton, Denorm.aggregate.injEq] at h
  subst h
  exact ⟨(ad_sum b).covered, fun f hf => by simp only [scoreSum, Agg.sum.injEq] at hf; subst hf; decide⟩

def sumDb : Db := ⟨fun t => if t = "forum" then [frow 1 "A" "" "" 5] else if t = "score" then [srow 1 1 (.int 2), srow 2 1 (.int 3)] else [], [], 0⟩

def sumHistory : List Stmt :=
  [.insert "score" [srow 3 1 (.int 10)], .update "score" (fun r => decide (r "id" = .int 1)) (fun _ r => r.set "points" (.int (-4))),
   .delete "score" (fun r => decide (r "id" = .int 2))]

theorem intRow_of {S : List (TableName × Col)} {t : TableName} {r : Row}
    (h : ∀ p ∈ S, p.1 = t → (match r p.2 with | .int _ => true | _ => false) = true) : IntRow S t r := by
  intro c hc
  have := h (t, c) hc rfl
  cases hv : r c with
  | int i => exact ⟨i, rfl⟩
  | null => simp [hv] at this
  | text s => simp [hv] at this

theorem sumHistory_legal (b : Backend) : AggLegalRun (sumEngine b) scoreSum sumCols 100 sumHistory sumDb := by
  have upd : ∀ db, AggLegal scoreSum sumCols db
      (.update "score" (fun r => decide (r "id" = .int 1)) (fun _ r => r.set "points" (.int (-4)))) := by
    intro db
    refine ⟨fun x r _ c hc => ?_, fun h => absurd h (by decide)⟩
    simp only [sumCols, List.mem_cons, Prod.mk.injEq, List.not_mem_nil, or_false] at hc
    rcases hc with ⟨h, _⟩ | ⟨_, rfl⟩
    · exact absurd h (by decide)
    · exact ⟨-4, by simp [Row.set]⟩
  have ins : ∀ db, AggLegal scoreSum sumCols db (.insert "score" [srow 3 1 (.int 10)]) := by
    intro db
    refine ⟨fun r hr => ?_, fun h => absurd h (by decide)⟩
    simp only [List.mem_singleton] at hr
    subst hr
    exact intRow_of (by decide)
  cases b <;> exact ⟨ins _, upd _, trivial, trivial⟩

/-- The sum goes from 5 to 15, 9 and 6. -/
example (b : Backend) : AggOk scoreSum sumDb ∧ AggLegalRun (sumEngine b) scoreSum sumCols 100 sumHistory sumDb ∧
    IntClosed b [.aggregate scoreSum] sumCols ∧ (∀ t, ∀ r ∈ sumDb.rows t, IntRow sumCols t r) ∧
    (((sumEngine b).run 100 sumHistory sumDb).rows "forum").map (fun r => r "post_count") = [.int 6] := by
  refine ⟨by unfold AggOk; decide, sumHistory_legal b, sum_closed b, ?_, by cases b <;> decide⟩
  intro t r hr
  by_cases h1 : t = "forum"
  · subst h1; exact intRow_of (by revert r; decide)
  · by_cases h2 : t = "score"
    · subst h2; exact intRow_of (by revert r; decide)
    · simp [sumDb, h1, h2] at hr

end Demo

/-! ## Where the claims fail -/

/-- **C12 is violated**, on every backend: a related row with NULL in the summed column makes the sum NULL for ever (and violates a NOT
NULL constraint if there is one). -/
theorem C12_violated_null (b : Backend) : ∃ (E : Engine) (D : List Denorm) (a : AggDenorm) (f : Col) (db : Db) (s : Stmt) (db' : Db),
    E.backend = b ∧ Installed E D ∧ AggDeclared E.backend D a ∧ a.agg = .sum f ∧ a.filter = [] ∧ a.exclude = [] ∧ SumIsRight a f db ∧
    E.exec 100 s db = .ok db' ∧ ¬ SumIsRight a f db' := by
  have h : ∃ db', (Demo.sumEngine b).exec 100 (.insert "score" [Demo.srow 3 1 .null]) Demo.sumDb = .ok db' ∧
      (db'.rows "forum").map (fun r => r "post_count") = [.null] := ok_of (by cases b <;> decide)
  obtain ⟨db', h1, h2⟩ := h
  refine ⟨Demo.sumEngine b, [.aggregate Demo.scoreSum], Demo.scoreSum, "points", Demo.sumDb, _, db', rfl, rfl, Demo.ad_sum b, rfl, rfl, rfl,
    by unfold SumIsRight; decide, h1, ?_⟩
  intro hs
  have hm : ∃ r ∈ db'.rows "forum", r "post_count" = .null := by
    cases hrows : db'.rows "forum" with
    | nil => rw [hrows] at h2; simp at h2
    | cons r l =>
      rw [hrows] at h2
      simp only [List.map_cons, List.cons.injEq] at h2
      exact ⟨r, List.mem_cons_self .., h2.1⟩
  obtain ⟨r, hr, hv⟩ := hm
  have := hs r hr
  rw [show Demo.scoreSum.fieldname = "post_count" from rfl, hv] at this
  simp at this

namespace Demo
set_option maxRecDepth 100000

/-- A tree with `children = CountField('node_set')`. -/
def nodeParent : Field := fkf "parent" "<class 'app.Node'>"
def node : Model :=
  { repr := "<class 'app.Node'>", appLabel := "app", name := "Node", table := "node", pkTable := "node", pk := "id", ct := 8,
    fields := [fld "id", nodeParent, fld "children"] }
def childCount : AggDenorm := { model := node, fieldname := "children", related := node, fk := nodeParent, agg := .count, skip := ["children"] }
def nrow (id : Int) (parent : Val) (n : Int) : Row := row [("id", .int id), ("parent_id", parent), ("children", .int n)]
def nodeEngine (b : Backend) : Engine := ⟨b, installedTriggers b [.aggregate childCount], fun _ => 0⟩

theorem ad_child (b : Backend) : AggDeclared b [.aggregate childCount] childCount where
  declared := by simp
  covered := by cases b <;> decide
  only := by simp
  pk := by decide
  fk := by decide
  watched := by decide
  fkcol := rfl
  conds := by decide

theorem child_noReentry (b : Backend) : NoReentry (nodeEngine b) := by
  apply noReentry_of (fun n => if n = "denorm_after_row_update_on_node" then 0 else 1)
  cases b <;> decide

/-- C10 covers self-relations too, if parents are inserted first (on MySQL such statements fail, error 1442). -/
example (b : Backend) (ss : List Stmt) (hL : CountLegalRun (nodeEngine b) childCount 100 ss ⟨fun _ => [], [], 0⟩) :
    CountIsRight childCount ((nodeEngine b).run 100 ss ⟨fun _ => [], [], 0⟩) :=
  C10_count (E := nodeEngine b) (D := [.aggregate childCount]) (show Installed _ _ from rfl) (ad_child b) (child_noReentry b) rfl rfl rfl 100 ss _ hL (by intro r hr; simp at hr)

example : CountLegalRun (nodeEngine .sqlite) childCount 100 [.insert "node" [nrow 1 .null 0, nrow 2 (.int 1) 0]] ⟨fun _ => [], [], 0⟩ ∧
    (((nodeEngine .sqlite).run 100 [.insert "node" [nrow 1 .null 0, nrow 2 (.int 1) 0]] ⟨fun _ => [], [], 0⟩).rows "node").map
      (fun r => r "children") = [.int 1, .int 0] := by
  refine ⟨⟨fun _ => ⟨by decide, fun _ => by decide⟩, trivial⟩, by decide⟩

end Demo

/-- Why insertion order matters: on sqlite, whose triggers run row by row, a multi-row INSERT with the child before its parent leaves
the parent's CountField at 0. -/
theorem C10_violated_child_first : ∃ (E : Engine) (D : List Denorm) (a : AggDenorm) (db : Db) (s : Stmt) (db' : Db),
    E.backend = .sqlite ∧ Installed E D ∧ AggDeclared E.backend D a ∧ NoReentry E ∧ a.agg = .count ∧ a.filter = [] ∧ a.exclude = [] ∧
    CountIsRight a db ∧ E.exec 100 s db = .ok db' ∧ ¬ CountIsRight a db' := by
  have h : ∃ db', (Demo.nodeEngine .sqlite).exec 100 (.insert "node" [Demo.nrow 2 (.int 1) 0, Demo.nrow 1 .null 0]) ⟨fun _ => [], [], 0⟩ = .ok db' ∧
      ¬ CountIsRight Demo.childCount db' := by
    refine ⟨_, rfl, ?_⟩
    unfold CountIsRight
    decide
  obtain ⟨db', h1, h2⟩ := h
  exact ⟨Demo.nodeEngine .sqlite, [.aggregate Demo.childCount], Demo.childCount, ⟨fun _ => [], [], 0⟩, _, db', rfl, rfl, Demo.ad_child .sqlite, Demo.child_noReentry .sqlite, rfl, rfl, rfl,
    (by intro r hr; simp at hr), h1, h2⟩

end Denorm
