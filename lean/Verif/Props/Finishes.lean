import Verif.Lemmas.Finishes
import Verif.Props.Transparent
/-!
# Triggers do not make statements fail (C51)
-/
namespace Denorm

section
variable {E : Engine} {D : List Denorm}

/-- C51 on sqlite: whatever is declared, every statement comes to an end and succeeds. -/
theorem C51_sqlite (hb : E.backend = .sqlite) (s : Stmt) (db : Db) : E.Finishes s db := sqlite_finishes hb s db

/-- C51 when no table feeds its own CountFields, SumFields and CacheKeyFields, directly or through others: every statement succeeds on every backend. -/
theorem C51_tables_partial (hE : Installed E D) (hthis : ∀ dn ∈ D, ∀ d ∈ dn.deps, d.this = dn.model) (hc : E.backend = .postgresql → TableNamesClear D)
    (ha : TablesAcyclic D) (s : Stmt) (db : Db) : E.Finishes s db := by
  cases hb : E.backend with
  | sqlite => exact sqlite_finishes hb s db
  | mysql => exact table_finishes (fun tr htr u hu => fedBy_lt ha (trigger_feeds hE hthis (fun h => absurd hb h) htr hu)) s db
  | postgresql => exact table_finishes (fun tr htr u hu => fedBy_lt ha (trigger_feeds hE hthis (fun _ => hc hb) htr hu)) s db

/-- C51 on PostgreSQL, column by column: what is excluded with `skip` breaks a cycle. -/
theorem C51_postgresql_partial (hb : E.backend = .postgresql) (ha : ∀ p, ¬ Leads E p p) (s : Stmt) (db : Db) : E.Finishes s db :=
  col_finishes (fun h => by rw [hb] at h; cases h) ha s db

/-- C51 on MySQL, column by column: no statement may lead back to its own table, whatever the column. -/
theorem C51_mysql_partial (ha : ∀ t c, ¬ Stirs E t (t, c)) (s : Stmt) (db : Db) : E.Finishes s db :=
  col_finishes (fun _ => ha) (fun p h => ha p.1 p.2 (stirs_of_leads h)) s db

end

/-! ## The hypotheses are met -/

namespace Demo
set_option maxRecDepth 100000

theorem decls_acyclic : TablesAcyclic decls := by
  have h : ∀ t t', Feeds decls t t' → t = "post" ∧ t' = "forum" := by
    intro t t' h
    induction h with
    | @direct dn t hdn ht =>
      simp only [decls, List.mem_cons, List.not_mem_nil, or_false] at hdn
      rcases hdn with rfl | rfl | rfl | rfl | rfl <;> simp [Denorm.sources, titles, tagsString, forumTitle, bookmarkTitles, Callback.denorm] at ht
      subst ht
      exact ⟨rfl, rfl⟩
    | trans _ _ h1 h2 => exact absurd (h1.2.symm.trans h2.1) (by decide)
  intro t ht
  obtain ⟨rfl, h2⟩ := h t t ht
  exact absurd h2 (by decide)

theorem decls_tables : ∀ g ∈ generated decls, g.table ∈ ["forum", "post", "member", "member_bookmarks", "tag"] := by decide

theorem decls_clear : TableNamesClear decls := by
  intro g hg g' hg' n h
  have h1 := decls_tables g hg
  have h2 := decls_tables g' hg'
  have h3 : ∀ t ∈ ["forum", "post", "member", "member_bookmarks", "tag"], ∀ t' ∈ ["forum", "post", "member", "member_bookmarks", "tag"],
      ¬ (t' ++ "_").toList <+: t.toList ∨ (t = "member_bookmarks" ∧ t' = "member") := by decide
  rcases h3 _ h1 _ h2 with h4 | ⟨h4, h5⟩
  · refine h4 ⟨(toString n).toList, ?_⟩
    rw [← String.toList_append, ← h]
  · rw [h4, h5] at h
    have h6 : "bookmarks" = toString n := by
      refine String.append_right_inj' (a := "member" ++ "_") ?_
      rw [← h]
      decide
    have h7 : '_' ∉ (toString n).toList ∧ 'b' ∉ (toString n).toList := by
      refine ⟨underscore_notin_digits n, fun hb => ?_⟩
      rw [show toString n = n.repr from rfl, Nat.toList_repr] at hb
      have := Nat.isDigit_of_mem_toDigits (by decide) (by decide) hb
      exact absurd this (by decide)
    rw [← h6] at h7
    exact absurd h7.2 (by decide)

/-- The demo project: every statement on every content. -/
example (b : Backend) (s : Stmt) (db : Db) : (engine b).Finishes s db :=
  C51_tables_partial (D := decls) (installed b) (by decide) (fun _ => decls_clear) decls_acyclic s db

/-- A CountField of `Forum` and a CacheKeyField of `Post`, with `skip`: the tables feed each other, but the columns do not. -/
theorem keyed_leads (b : Backend) (p q : TableName × Col) (h : Leads (keyedEngine b) p q) :
    (p.1 = "post" ∧ p.2 ≠ "cachekey" ∧ q = ("forum", "post_count")) ∨ (p.1 = "forum" ∧ p.2 ≠ "post_count" ∧ q = ("post", "cachekey")) := by
  induction h with
  | @direct tr u c htr hev hc hu =>
    have h1 : ∀ tr ∈ (keyedEngine b).triggers, tr.event = .update → tr.fields ≠ [] ∧ tr.ctField = none ∧ ∀ u ∈ tr.updates,
        (tr.table = "post" ∧ "cachekey" ∉ tr.fields ∧ (u.table, u.col) = ("forum", "post_count")) ∨
        (tr.table = "forum" ∧ "post_count" ∉ tr.fields ∧ (u.table, u.col) = ("post", "cachekey")) := by cases b <;> decide
    obtain ⟨h2, h3, h4⟩ := h1 tr htr hev
    have hcf : c ∈ tr.fields := hc.resolve_left fun h => h.elim h2 fun h => h h3
    rcases h4 u (DbTrigger.mem_updates.2 hu) with ⟨h5, h6, h7⟩ | ⟨h5, h6, h7⟩
    · exact .inl ⟨h5, fun e => h6 (e ▸ hcf), h7⟩
    · exact .inr ⟨h5, fun e => h6 (e ▸ hcf), h7⟩
  | trans _ _ h1 h2 =>
    rcases h1 with ⟨_, _, rfl⟩ | ⟨_, _, rfl⟩ <;> rcases h2 with ⟨h3, h4, _⟩ | ⟨h3, h4, _⟩
    · exact absurd h3 (by decide)
    · exact absurd rfl h4
    · exact absurd rfl h4
    · exact absurd h3 (by decide)

theorem keyed_columns (b : Backend) (p : TableName × Col) : ¬ Leads (keyedEngine b) p p := by
  intro h
  rcases keyed_leads b p p h with ⟨h1, _, h2⟩ | ⟨h1, _, h2⟩ <;> rw [h2] at h1 <;> exact absurd h1 (by decide)

theorem keyed_stirs (b : Backend) (t : TableName) (c : Col) : ¬ Stirs (keyedEngine b) t (t, c) := by
  have h : ∀ q, Stirs (keyedEngine b) t q → (t = "post" ∧ q = ("forum", "post_count")) ∨ (t = "forum" ∧ q = ("post", "cachekey")) := by
    intro q h
    induction h with
    | @direct tr u htr ht hu =>
      have h1 : ∀ tr ∈ (keyedEngine b).triggers, ∀ u ∈ tr.updates,
          (tr.table = "post" ∧ (u.table, u.col) = ("forum", "post_count")) ∨ (tr.table = "forum" ∧ (u.table, u.col) = ("post", "cachekey")) := by
        cases b <;> decide
      rw [← ht]
      exact h1 tr htr u (DbTrigger.mem_updates.2 hu)
    | next _ h1 ih =>
      rcases keyed_leads b _ _ h1 with ⟨h2, h3, h4⟩ | ⟨h2, h3, h4⟩ <;> rcases ih with ⟨_, rfl⟩ | ⟨_, rfl⟩
      · exact absurd h2 (by decide)
      · exact absurd rfl h3
      · exact absurd rfl h3
      · exact absurd h2 (by decide)
  intro hs
  rcases h _ hs with ⟨rfl, h2⟩ | ⟨rfl, h2⟩ <;> simp at h2

example (b : Backend) (s : Stmt) (db : Db) : (keyedEngine b).Finishes s db := by
  cases b with
  | sqlite => exact C51_sqlite rfl s db
  | mysql => exact C51_mysql_partial (keyed_stirs .mysql) s db
  | postgresql => exact C51_postgresql_partial rfl (keyed_columns .postgresql) s db

/-! ## The same without `skip` -/

/-- `Forum.post_count = CountField('post_set')`, `Post.cachekey = CacheKeyField()` with `cachekey.depend_on_related('Forum')`. -/
def loopDecls : List Denorm := [.aggregate postCount, cacheKey]
def loopEngine (b : Backend) (rand : Nat → Int) : Engine := ⟨b, installedTriggers b loopDecls, rand⟩

/-- `INSERT INTO post` -/
def newPost : Stmt := .insert "post" [prow 1 1 "x" "" (-1)]

/-- One forum and no posts. -/
def oneForum : Db := ⟨fun t => if t = "forum" then [frow 1 "A" "" "" 0] else [], [], 0⟩

def incU : UpdAction := ⟨"forum", "post_count", .plus .one, .eq "id" .new "forum_id", []⟩
def decU : UpdAction := ⟨"forum", "post_count", .minus .one, .eq "id" .old "forum_id", []⟩
def rndU : UpdAction := ⟨"post", "cachekey", .random, .eq "forum_id" .new "id", []⟩

/-- One forum, one post in it, whose key no later random number equals. -/
structure LoopDb (rand : Nat → Int) (db : Db) : Prop where
  forum : ∃ r k, db.rows "forum" = [r] ∧ r "id" = .int 1 ∧ r "post_count" = .int k
  post : ∃ p, db.rows "post" = [p] ∧ p "forum_id" = .int 1 ∧ ∀ m, db.draws ≤ m → p "cachekey" ≠ .int (rand m)

inductive Loop (rand : Nat → Int) : List Item → Db → Prop where
  | inc {fr ch W db} : LoopDb rand db → ch.new "forum_id" = .int 1 → Loop rand (.act fr ch (.update incU) :: W) db
  | forum {fr ch db0 W db} : LoopDb rand db → Loop rand (.write fr "forum" [.upd 0 (incU.set ch db0)] :: W) db
  | rnd {fr ch W db} : LoopDb rand db → ch.new "id" = .int 1 → Loop rand (.act fr ch (.update rndU) :: W) db
  | post {fr ch db0 W db} : LoopDb rand db → Loop rand (.write fr "post" [.upd 0 (rndU.set ch db0)] :: W) db

theorem targetsOf_one {r : Row} {w : Row → Bool} (h : w r = true) : targetsOf [r] w = [0] := by
  simp [targetsOf, List.range_succ, h]

theorem loop_triggers (rand : Nat → Int) : (loopEngine .postgresql rand).triggers =
    [⟨"denorm_after_row_update_on_post", "post", .update, ["id", "forum_id", "title", "forum_title", "cachekey"], none, 1, [.update incU, .update decU]⟩,
     ⟨"denorm_after_row_insert_on_post", "post", .insert, ["id", "forum_id", "title", "forum_title", "cachekey"], none, 1, [.update incU]⟩,
     ⟨"denorm_after_row_delete_on_post", "post", .delete, ["id", "forum_id", "title", "forum_title", "cachekey"], none, 1, [.update decU]⟩,
     ⟨"denorm_after_row_update_on_forum", "forum", .update, ["id", "title", "titles", "tags_string", "post_count"], none, 2, [.update rndU]⟩,
     ⟨"denorm_after_row_insert_on_forum", "forum", .insert, ["id", "title", "titles", "tags_string", "post_count"], none, 2, [.update rndU]⟩,
     ⟨"denorm_after_row_delete_on_forum", "forum", .delete, ["id", "title", "titles", "tags_string", "post_count"], none, 2,
       [.update { rndU with key := .eq "forum_id" .old "id" }]⟩] := by
  show installedTriggers .postgresql loopDecls = _
  decide

theorem loop_step {rand : Nat → Int} (hinj : ∀ m n, rand m = rand n → m = n) {W : List Item} {db : Db} (h : Loop rand W db) :
    ∃ it W' new db', W = it :: W' ∧ (loopEngine .postgresql rand).step it db = .ok (new, db') ∧ Loop rand (new ++ W') db' := by
  cases h with
  | @inc fr ch W _ hdb hch =>
    refine ⟨_, _, _, _, rfl, rfl, ?_⟩
    obtain ⟨r, k, h1, h2, h3⟩ := hdb.forum
    have : incU.ops ch db = [.upd 0 (incU.set ch db)] := by
      simp only [UpdAction.ops, show incU.table = "forum" from rfl, h1]
      rw [targetsOf_one]
      · rfl
      · simp [UpdAction.where_, incU, Key.matches, Change.side, hch, h2, Val.sqlEq_iff]
    rw [this]
    exact .forum hdb
  | @forum fr ch db0 W _ hdb =>
    obtain ⟨r, k, h1, h2, h3⟩ := hdb.forum
    obtain ⟨p, h4, h5, h6⟩ := hdb.post
    refine ⟨_, _, _, _, rfl, rfl, ?_⟩
    have hne : changedCols ["id", "title", "titles", "tags_string", "post_count"] r (r.set "post_count" (.int (k + 1))) = true :=
      changedCols_iff.2 ⟨"post_count", by simp, by rw [h3]; simp [Row.set]; omega⟩
    have hset : ∀ x, incU.set ch db0 x r = r.set "post_count" (.int (k + 1)) := by
      intro x
      simp [UpdAction.set, incU, SetExpr.eval, Term.eval, h3, Val.add]
    simp only [applyOps, applyOp, h1, List.getElem?_cons_zero, hset, List.append_nil, List.flatMap_cons, List.flatMap_nil, Engine.fired, loop_triggers]
    simp only [List.filter_cons, List.filter_nil, Engine.enters, DbTrigger.fires, hne, show (loopEngine .postgresql rand).backend = .postgresql from rfl]
    simp only [decide_true, decide_false, String.reduceEq, Bool.false_and, Bool.true_and, Bool.and_true, Bool.false_eq_true, if_false, if_true, reduceCtorEq,
      Bool.not_false, List.flatMap_cons, List.flatMap_nil, List.map_cons, List.map_nil, List.append_nil, List.cons_append, List.nil_append]
    refine .rnd ⟨⟨r.set "post_count" (.int (k + 1)), k + 1, by simp [Db.setRows], ?_, ?_⟩, ⟨p, ?_, h5, fun m hm => h6 m ?_⟩⟩ ?_
    · simp [Row.set, h2]
    · simp [Row.set]
    · simp [Db.setRows, h4]
    · exact Nat.le_of_succ_le hm
    · simp [Row.set, h2]
  | @rnd fr ch W _ hdb hch =>
    refine ⟨_, _, _, _, rfl, rfl, ?_⟩
    obtain ⟨p, h1, h2, h3⟩ := hdb.post
    have : rndU.ops ch db = [.upd 0 (rndU.set ch db)] := by
      simp only [UpdAction.ops, show rndU.table = "post" from rfl, h1]
      rw [targetsOf_one]
      · rfl
      · simp [UpdAction.where_, rndU, Key.matches, Change.side, hch, h2, Val.sqlEq_iff]
    rw [this]
    exact .post hdb
  | @post fr ch db0 W _ hdb =>
    obtain ⟨r, k, h1, h2, h3⟩ := hdb.forum
    obtain ⟨p, h4, h5, h6⟩ := hdb.post
    refine ⟨_, _, _, _, rfl, rfl, ?_⟩
    have hne : changedCols ["id", "forum_id", "title", "forum_title", "cachekey"] p (p.set "cachekey" (.int (rand db.draws))) = true :=
      changedCols_iff.2 ⟨"cachekey", by simp, by simpa [Row.set] using h6 _ (Nat.le_refl _)⟩
    have hset : ∀ x, rndU.set ch db0 x p = p.set "cachekey" (.int x) := by
      intro x
      simp [UpdAction.set, rndU, SetExpr.eval]
    simp only [applyOps, applyOp, h4, List.getElem?_cons_zero, hset, List.append_nil, List.flatMap_cons, List.flatMap_nil, Engine.fired, loop_triggers]
    simp only [List.filter_cons, List.filter_nil, Engine.enters, DbTrigger.fires, hne, show (loopEngine .postgresql rand).backend = .postgresql from rfl,
      show (loopEngine .postgresql rand).rand = rand from rfl]
    simp only [decide_true, decide_false, String.reduceEq, Bool.false_and, Bool.true_and, Bool.and_true, Bool.false_eq_true, if_false, if_true, reduceCtorEq,
      Bool.not_false, List.flatMap_cons, List.flatMap_nil, List.map_cons, List.map_nil, List.append_nil, List.cons_append, List.nil_append]
    refine .inc ⟨⟨r, k, by simp [Db.setRows, h1], h2, h3⟩, ⟨p.set "cachekey" (.int (rand db.draws)), by simp [Db.setRows], ?_, fun m hm => ?_⟩⟩ ?_
    · simp [Row.set, h5]
    · simp only [Row.set, if_true, ne_eq, Val.int.injEq]
      intro e
      have := hinj _ _ e
      subst this
      exact absurd hm (Nat.not_succ_le_self _)
    · simp [Row.set, h5]

end Demo

/-- **C51 is violated on PostgreSQL**: with `Forum.post_count = CountField('post_set')` and `Post.cachekey = CacheKeyField()` depending on `Forum`,
inserting a post never ends (the two triggers call each other until the server gives up), as long as random numbers do not repeat. -/
theorem C51_violated_postgresql (rand : Nat → Int) (hinj : ∀ m n, rand m = rand n → m = n) (hkey : ∀ n, rand n ≠ -1) :
    Installed (Demo.loopEngine .postgresql rand) Demo.loopDecls ∧
      ∀ fuel, (Demo.loopEngine .postgresql rand).exec fuel Demo.newPost Demo.oneForum = .error .depth := by
  refine ⟨rfl, fun fuel => ?_⟩
  cases fuel with
  | zero => rfl
  | succ n =>
    let p := Demo.prow 1 1 "x" "" (-1)
    have hs : (Demo.loopEngine .postgresql rand).step (.write .top "post" [.ins p]) Demo.oneForum =
        .ok ([.act ⟨["denorm_after_row_insert_on_post"], ["post"]⟩ ⟨"post", .insert, p, p⟩ (.update Demo.incU)], Demo.oneForum.setRows "post" [p]) := by
      simp only [Engine.step, applyOps, applyOp, List.append_nil, List.flatMap_cons, List.flatMap_nil, Engine.fired, Demo.loop_triggers]
      rfl
    show (Demo.loopEngine .postgresql rand).drain (n + 1) [.write .top "post" [.ins p]] Demo.oneForum = _
    simp only [Engine.drain, hs]
    refine endless (P := Demo.Loop rand) (fun W db h => Demo.loop_step hinj h) n _ _ (.inc ⟨⟨_, 0, rfl, rfl, rfl⟩, ⟨p, rfl, rfl, fun m _ => ?_⟩⟩ rfl)
    show Val.int (-1) ≠ Val.int (rand m)
    intro e
    simp only [Val.int.injEq] at e
    exact hkey m e.symm

/-- Such random numbers exist, and the tables feed each other. -/
example : (∀ m n : Nat, (m : Int) = n → m = n) ∧ (∀ n : Nat, (n : Int) ≠ -1) ∧ Feeds Demo.loopDecls "post" "post" :=
  ⟨fun _ _ => Int.ofNat.inj, fun n => by omega,
    .trans (t' := "forum") (.direct (dn := .aggregate Demo.postCount) (by decide) (by decide)) (.direct (dn := Demo.cacheKey) (by decide) (by decide))⟩

set_option maxRecDepth 100000 in
/-- **C51 is violated on MySQL**: the same declarations. The post's trigger updates the forum, whose trigger would update `post`, the table of the
statement: error 1442, whatever the limit. -/
theorem C51_violated_mysql : Installed (Demo.loopEngine .mysql fun n => n) Demo.loopDecls ∧
    (Demo.loopEngine .mysql fun n => n).Fails Demo.newPost Demo.oneForum :=
  ⟨rfl, fails_of_error (n := 100) (e := .tableInUse "post") (error_of (by decide +kernel)) (by decide)⟩

set_option maxRecDepth 100000 in
/-- **C51 is violated on MySQL** by a CountField over a relation of a model to itself, even with `skip`: no node can be inserted below another one. -/
theorem C51_violated_mysql_tree : ∃ (D : List Denorm) (s : Stmt) (db : Db), D = [.aggregate Demo.childCount] ∧ Installed (Demo.nodeEngine .mysql) D ∧
    (Demo.nodeEngine .mysql).Fails s db ∧ (∀ p, ¬ Leads (Demo.nodeEngine .mysql) p p) := by
  refine ⟨_, .insert "node" [Demo.nrow 2 (.int 1) 0], ⟨fun t => if t = "node" then [Demo.nrow 1 .null 0] else [], [], 0⟩, rfl, rfl,
    fails_of_error (n := 100) (e := .tableInUse "node") (error_of (by decide +kernel)) (by decide), ?_⟩
  have h : ∀ p q, Leads (Demo.nodeEngine .mysql) p q → p.2 ≠ "children" ∧ q.2 = "children" := by
    intro p q h
    induction h with
    | @direct tr u c htr hev hc hu =>
      have h1 : ∀ tr ∈ (Demo.nodeEngine .mysql).triggers, tr.event = .update → tr.fields ≠ [] ∧ tr.ctField = none ∧ "children" ∉ tr.fields ∧
          ∀ u ∈ tr.updates, u.col = "children" := by decide
      obtain ⟨h2, h3, h4, h5⟩ := h1 tr htr hev
      have hcf : c ∈ tr.fields := hc.resolve_left fun h => h.elim h2 fun h => h h3
      exact ⟨fun e => h4 (e ▸ hcf), h5 u (DbTrigger.mem_updates.2 hu)⟩
    | trans _ _ h1 h2 => exact ⟨h1.1, h2.2⟩
  intro p hp
  exact (h p p hp).1 (h p p hp).2

end Denorm
