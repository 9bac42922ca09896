import Verif.Lemmas.Transparent
import Verif.Props.Aggregates
/-!
# Triggers leave the rest of the data alone (C50)
-/
namespace Denorm

section
variable {E : Engine} {D : List Denorm} {db db' : Db} {fuel : Nat}

/-- C50. A statement that succeeds leaves in every table the rows it would leave in a database without triggers, in the same order; only CountFields,
SumFields and CacheKeyFields may differ. The statement may be anything that does not copy such fields into others or choose by them what to delete. -/
theorem C50_data (hE : Installed E D) (hthis : ∀ dn ∈ D, ∀ d ∈ dn.deps, d.this = dn.model) {s : Stmt} (hb : s.Blind (Maintained D s.table))
    (h : E.exec fuel s db = .ok db') : SameData (Maintained D) (s.alone db.rows) db'.rows :=
  sameData_of (exec_plain (fun _ _ h => managed_maintained hE hthis h) hb h)

/-- C50 for a history of any length. -/
theorem C50_history (hE : Installed E D) (hthis : ∀ dn ∈ D, ∀ d ∈ dn.deps, d.this = dn.model) {ss : List Stmt}
    (hb : ∀ s ∈ ss, s.FullyBlind (Maintained D s.table)) (h : E.Runs fuel ss db db') : SameData (Maintained D) (aloneAll ss db.rows) db'.rows := by
  refine sameData_of ?_
  have : ∀ (ss : List Stmt) (rows : TableName → List Row) (db : Db), (∀ s ∈ ss, s.FullyBlind (Maintained D s.table)) →
      (∀ t, Pw (Row.Agrees (Maintained D t)) (rows t) (db.rows t)) → E.Runs fuel ss db db' →
      ∀ t, Pw (Row.Agrees (Maintained D t)) (aloneAll ss rows t) (db'.rows t) := by
    intro ss
    induction ss with
    | nil =>
      intro rows db _ hr h
      simp only [Engine.Runs] at h
      subst h
      exact hr
    | cons s ss ih =>
      intro rows db hb hr h
      obtain ⟨db1, h1, h2⟩ := h
      have hs := hb s (List.mem_cons_self ..)
      refine ih (s.alone rows) db1 (fun s' hs' => hb s' (List.mem_cons_of_mem _ hs')) (fun t => ?_) h2
      exact (alone_agrees hs hr t).trans (fun a b c hab hbc col hcol => (hab col hcol).trans (hbc col hcol))
        (exec_plain (fun _ _ h => managed_maintained hE hthis h) hs.1 h1 t)
  exact this ss db.rows db hb (fun t => Pw.refl (fun r => Row.Agrees.refl r) _) h

/-- C50: a table without such fields is exactly what it would be without triggers. -/
theorem C50_rows (hE : Installed E D) (hthis : ∀ dn ∈ D, ∀ d ∈ dn.deps, d.this = dn.model) {s : Stmt} (hb : s.Blind (Maintained D s.table))
    (h : E.exec fuel s db = .ok db') {t : TableName} (ht : ∀ c, ¬ Maintained D t c) : db'.rows t = s.alone db.rows t := by
  obtain ⟨h1, h2⟩ := C50_data hE hthis hb h t
  refine List.ext_getElem? fun i => ?_
  cases e1 : (s.alone db.rows t)[i]? with
  | none =>
    have := List.getElem?_eq_none_iff.1 e1
    exact List.getElem?_eq_none_iff.2 (by omega)
  | some r =>
    have hlt := (List.getElem?_eq_some_iff.1 e1).1
    have e2 : (db'.rows t)[i]? = some (db'.rows t)[i] := List.getElem?_eq_getElem (by omega)
    rw [e2]
    exact congrArg some (funext fun c => (h2 i r _ e1 e2 c (ht c)).symm)

end

/-! ## The hypotheses are met, and the restriction on the statement is needed -/

namespace Demo
set_option maxRecDepth 100000

/-- The demo project with its CacheKeyField; a forum's count does not matter to the key. -/
def quietKey : Denorm := .cacheKey post "cachekey" [⟨post, forum, .forward postForum, ["post_count"]⟩]
def quietCount : AggDenorm := { postCount with skip := ["cachekey"] }
def withKey : List Denorm := [.aggregate quietCount, quietKey]
def keyedEngine (b : Backend) : Engine := ⟨b, installedTriggers b withKey, fun n => 100 + n⟩

theorem keyed_installed (b : Backend) : Installed (keyedEngine b) withKey := by
  unfold Installed keyedEngine
  rfl

theorem withKey_this : ∀ dn ∈ withKey, ∀ d ∈ dn.deps, d.this = dn.model := by decide

theorem plain_withKey {c : Col} (h : c ≠ "cachekey") : ¬ Maintained withKey "post" c := by
  rintro ⟨dn, hdn, h1, h2, h3⟩
  simp only [withKey, List.mem_cons, List.not_mem_nil, or_false] at hdn
  rcases hdn with rfl | rfl
  · revert h1; decide
  · exact h h2.symm

/-- `UPDATE post SET forum_id = 2 WHERE title = 'x'` -/
def movePost : Stmt := .update "post" (fun r => r "title" == .text "x") fun _ r => r.set "forum_id" (.int 2)

/-- `DELETE FROM post WHERE id = 1` -/
def dropPost : Stmt := .delete "post" fun r => r "id" == .int 1

theorem movePost_blind : movePost.FullyBlind (Maintained withKey "post") := by
  refine ⟨fun x x' r r' h c hc => ?_, fun r r' h => ?_⟩
  · simp only [Row.set]
    split
    · rfl
    · exact h c hc
  · show (r "title" == _) = (r' "title" == _)
    rw [h "title" (plain_withKey (by decide))]

theorem dropPost_blind : dropPost.FullyBlind (Maintained withKey "post") := by
  refine ⟨fun r r' h => ?_, trivial⟩
  show (r "id" == _) = (r' "id" == _)
  rw [h "id" (plain_withKey (by decide))]

/-- The triggers do something: the counts of both forums change. -/
example (b : Backend) : ∃ db', (keyedEngine b).exec 100 movePost db = .ok db' ∧
    SameData (Maintained withKey) (movePost.alone db.rows) db'.rows ∧ (db'.rows "forum").map (fun r => r "post_count") = [.int 1, .int 1] ∧
    (movePost.alone db.rows "forum").map (fun r => r "post_count") = [.int 2, .int 0] := by
  have h : ∃ db', (keyedEngine b).exec 100 movePost db = .ok db' ∧ (db'.rows "forum").map (fun r => r "post_count") = [.int 1, .int 1] :=
    ok_of (by cases b <;> decide +kernel)
  obtain ⟨db', h1, h2⟩ := h
  exact ⟨db', h1, C50_data (keyed_installed b) withKey_this movePost_blind.1 h1, h2, by decide⟩

/-- A history: the post is moved and then deleted. -/
example (b : Backend) : ∃ db', (keyedEngine b).Runs 100 [movePost, dropPost] db db' ∧
    SameData (Maintained withKey) (aloneAll [movePost, dropPost] db.rows) db'.rows := by
  have h : ∃ db1, (keyedEngine b).exec 100 movePost db = .ok db1 ∧
      (match (keyedEngine b).exec 100 dropPost db1 with
        | .ok _ => true
        | .error _ => false) = true := ok_of (by cases b <;> decide +kernel)
  obtain ⟨db1, h1, h2⟩ := h
  generalize h3 : (keyedEngine b).exec 100 dropPost db1 = x at h2
  cases x with
  | error e => simp at h2
  | ok db2 =>
    have hr : (keyedEngine b).Runs 100 [movePost, dropPost] db db2 := ⟨db1, h1, db2, h3, rfl⟩
    refine ⟨db2, hr, C50_history (keyed_installed b) withKey_this ?_ hr⟩
    intro s hs
    simp only [List.mem_cons, List.not_mem_nil, or_false] at hs
    rcases hs with rfl | rfl
    · exact movePost_blind
    · exact dropPost_blind

/-- The tree with a further field. -/
def lnode : Model := { node with fields := node.fields ++ [fld "label"] }
def lchildCount : AggDenorm := { childCount with model := lnode, related := lnode }

/-- `UPDATE node SET parent_id = NULL, label = children` -/
def copyCount : Stmt := .update "node" (fun _ => true) fun _ r => (r.set "label" (r "children")).set "parent_id" .null

end Demo

set_option maxRecDepth 100000 in
/-- The restriction on the statement is needed: on sqlite a statement that copies a CountField into another field stores a count that its own triggers
have changed meanwhile. -/
theorem C50_needs_blind : ∃ (E : Engine) (D : List Denorm) (s : Stmt) (db db' : Db), Installed E D ∧ (∀ dn ∈ D, ∀ d ∈ dn.deps, d.this = dn.model) ∧
    E.exec 100 s db = .ok db' ∧ ¬ SameData (Maintained D) (s.alone db.rows) db'.rows := by
  let E : Engine := ⟨.sqlite, installedTriggers .sqlite [.aggregate Demo.lchildCount], fun _ => 0⟩
  let db : Db := ⟨fun t => if t = "node" then [Demo.nrow 2 (.int 1) 0, Demo.nrow 1 .null 1] else [], [], 0⟩
  have h : ∃ db', E.exec 100 Demo.copyCount db = .ok db' ∧ ((db'.rows "node")[1]?.map (fun r => r "label")) = some (.int 0) := ok_of (by decide +kernel)
  obtain ⟨db', h1, h2⟩ := h
  refine ⟨E, _, Demo.copyCount, db, db', rfl, by decide, h1, fun h => ?_⟩
  cases e : (db'.rows "node")[1]? with
  | none => rw [e] at h2; simp at h2
  | some r' =>
    rw [e] at h2
    have := (h "node").2 1 _ r' rfl e "label" (by
      rintro ⟨dn, hdn, h3, h4, _⟩
      simp only [List.mem_singleton] at hdn
      subst hdn
      revert h4
      decide)
    simp only [Option.map_some, Option.some.injEq] at h2
    rw [h2] at this
    revert this
    decide

end Denorm
