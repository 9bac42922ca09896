import Verif.Lemmas.Visits
import Verif.DemoChain
import Verif.Props.Tracking
/-!
# flush() (C01, C20, C22, C23, C45)
-/
namespace Denorm

section
variable {A : App} {D : List Denorm} {om : OrmModel} {cb : Callback} {db db' : Db}

/-- C01, for callback fields that one save of the instance makes right (`Flushable`, see there for what is excluded; the violations are
below). If every out-of-date instance is marked when flush() is called, then whenever it returns, after any number of passes, no marker
is left and every row holds what the callback returns on the final database. -/
theorem C01_flush_partial (hF : Flushable A D om cb db) (hu : KeysUnique A db) (hK : KeysOk cb db) (hS : StaleMarked cb db)
    {n : Nat} (h : A.flush n db = .ok (some db')) :
    db'.dirty = [] ∧ ∀ r ∈ db'.rows cb.model.table, r cb.field = cb.value db' r := by
  obtain ⟨hG, hd⟩ := good_flush n ⟨hF, hu, hK, hS⟩ h
  refine ⟨hd, fun r hr => Classical.byContradiction fun hne => ?_⟩
  have := hG.stale r hr hne
  simp [Marked, hd] at this

/-- C01 together with C02–C05 and C37: whatever legal history of statements precedes it, flush() leaves nothing stale. -/
theorem C01_history_partial {fuel : Nat} {ss : List Stmt} {db0 : Db} (hL : LegalRun A.engine cb fuel ss db0) (hK : KeysOk cb db0)
    (hS : ∀ r ∈ db0.rows cb.model.table, r cb.field = cb.value db0 r ∨ Marked cb.model db0 r)
    (hF : Flushable A D om cb (A.engine.run fuel ss db0)) (hu : KeysUnique A (A.engine.run fuel ss db0))
    {n : Nat} (h : A.flush n (A.engine.run fuel ss db0) = .ok (some db')) :
    db'.dirty = [] ∧ ∀ r ∈ db'.rows cb.model.table, r cb.field = cb.value db' r := by
  obtain ⟨hK', hg⟩ := track_run (tracks_of_installed hF.installed hF.declared) hF.noReentry (freshTracked cb) ss db0 hL hK
    (fun r hr => (hS r hr).symm)
  exact C01_flush_partial hF hu hK' (staleMarked_iff.2 hg) h

/-- C20. In every state of the database that exists while flush() runs, every out-of-date instance is marked; and a flush() started
from there leaves nothing stale when it returns. -/
theorem C20_crash_safe_partial (hF : Flushable A D om cb db) (hu : KeysUnique A db) (hK : KeysOk cb db) (hS : StaleMarked cb db)
    {x : Db} (hx : A.Visits db x) :
    (∀ r ∈ x.rows cb.model.table, r cb.field ≠ cb.value x r → Marked cb.model x r) ∧
    ∀ n db', A.flush n x = .ok (some db') → db'.dirty = [] ∧ ∀ r ∈ db'.rows cb.model.table, r cb.field = cb.value db' r := by
  have hG := good_visits hx ⟨hF, hu, hK, hS⟩
  exact ⟨hG.stale, fun n db' h => C01_flush_partial hG.flushable hG.keys hG.keysOk hG.stale h⟩

end

/-! ## C22 -/

section
variable {A : App} {db : Db}

/-- C22, one marker: nothing happens except that the marker (with its duplicates) is deleted. -/
theorem C22_discarded {m : Mark} (h : A.NoTarget db m) :
    A.flushOne m db = .ok { db with dirty := db.dirty.filter fun m' => m' ≠ m } ∧ A.savedIn [m] db = [] := by
  refine ⟨flushOne_noTarget h, ?_⟩
  simp [App.savedIn, contentObject_none h, flushOne_noTarget h]

theorem flushList_noTarget : ∀ (ms : List Mark) (db : Db), (∀ m ∈ ms, A.NoTarget db m) →
    ∃ db', A.flushList ms db = .ok db' ∧ db'.rows = db.rows ∧ db'.draws = db.draws ∧ db'.dirty = db.dirty.filter (fun m => m ∉ ms) ∧
      A.savedIn ms db = []
  | [], db, _ => ⟨db, rfl, rfl, rfl, by rw [List.filter_eq_self.2 (by simp)], rfl⟩
  | m :: ms, db, h => by
    have hm := flushOne_noTarget (h m (List.mem_cons_self ..))
    obtain ⟨db', h1, h2, h3, h4, h5⟩ := flushList_noTarget ms (db.dropMarks m) fun m' hm' => h m' (List.mem_cons_of_mem _ hm')
    refine ⟨db', by simp [App.flushList, hm, h1], h2, h3, ?_, ?_⟩
    · rw [h4]
      simp only [Db.dropMarks, List.filter_filter]
      congr 1
      funext m'
      by_cases e : m' = m <;> simp [e]
    · simp [App.savedIn, contentObject_none (h m (List.mem_cons_self ..)), hm, h5]

/-- C22, a whole flush() that finds only such markers: it returns after one pass, has called save() on nothing, no marker is left, and
the tables are untouched. -/
theorem C22_only_targetless (hp : ∀ l, (A.arrange l).Perm l) (h : ∀ m ∈ db.dirty, A.NoTarget db m) :
    ∃ db', A.flush 1 db = .ok (some db') ∧ db'.dirty = [] ∧ db'.rows = db.rows ∧ A.flushSaves 1 db = [] := by
  have hmem : ∀ m, m ∈ A.snapshot db ↔ m ∈ db.dirty := by
    intro m
    simp only [App.snapshot]
    split
    · rw [mem_dedup]; exact (hp _).mem_iff
    · exact (hp _).mem_iff
  by_cases hd : db.dirty = []
  · exact ⟨db, by simp [App.flush, hd], hd, rfl, by simp [App.flushSaves, hd]⟩
  · obtain ⟨db', h1, h2, _, h4, h5⟩ := flushList_noTarget (A.snapshot db) db fun m hm => h m ((hmem m).1 hm)
    have hd' : db'.dirty = [] := by
      rw [h4, List.filter_eq_nil_iff]
      intro m hm
      simp [(hmem m).2 hm]
    refine ⟨db', ?_, hd', h2, ?_⟩
    · simp [App.flush, hd, App.pass, h1, hd']
    · simp [App.flushSaves, hd, h5, App.pass, h1]

/-! ## C23 -/

/-- C23, backends with DISTINCT ON: one pass calls save() at most once for each object, no matter how many markers it has, and also if
the pass is cut short by an error. -/
theorem C23_once (hb : A.engine.backend = .postgresql) (m : Mark) : (A.savedIn (A.snapshot db) db).count m ≤ 1 := by
  have hs : A.snapshot db = dedup (A.arrange db.dirty) := by simp [App.snapshot, hb]
  have hnd : (A.savedIn (A.snapshot db) db).Nodup := (hs ▸ nodup_dedup _ : (A.snapshot db).Nodup).sublist (savedIn_sublist _ _)
  exact List.nodup_iff_count.1 hnd m

/-- C23, backends with DISTINCT ON: and it is called exactly once for each marked object that exists. -/
theorem C23_exactly_once (hS : KeysSafe A) (hu : KeysUnique A db) (hp : ∀ l, (A.arrange l).Perm l) (hb : A.engine.backend = .postgresql)
    {db' : Db} (h : A.pass db = .ok db') {m : Mark} (hm : m ∈ db.dirty) (ht : A.HasTarget db m) :
    (A.savedIn (A.snapshot db) db).count m = 1 := by
  have hs : A.snapshot db = dedup (A.arrange db.dirty) := by simp [App.snapshot, hb]
  refine Nat.le_antisymm (C23_once hb m) (List.count_pos_iff.2 ?_)
  rw [savedIn_eq hS _ hu h, List.mem_filter]
  refine ⟨?_, by simpa using ht⟩
  rw [hs, mem_dedup]
  exact (hp _).mem_iff.2 hm

/-- C23, the other backends: save() is called once per marker present at the start of the pass. -/
theorem C23_once_per_marker (hS : KeysSafe A) (hu : KeysUnique A db) (hp : ∀ l, (A.arrange l).Perm l)
    (hb : A.engine.backend ≠ .postgresql) {db' : Db} (h : A.pass db = .ok db') {m : Mark} (ht : A.HasTarget db m) :
    (A.savedIn (A.snapshot db) db).count m = db.dirty.count m := by
  have hs : A.snapshot db = A.arrange db.dirty := by
    simp only [App.snapshot]
  rw [savedIn_eq hS _ hu h, List.count_filter (by simpa using ht), hs]
  exact (hp _).count_eq m

end

/-! ## The hypotheses are met -/

namespace Demo
set_option maxRecDepth 100000

/-- The demo database after forum 1 was renamed to Z and post 2 to q, with duplicated markers and one without a target. -/
def staleDb : Db :=
  ⟨fun t =>
    if t = "forum" then [frow 1 "Z" "xy" "t" 2, frow 2 "B" "" "" 0]
    else if t = "post" then [prow 1 1 "x" "A" 0, prow 2 1 "q" "A" 0]
    else if t = "member" then [mrow 1 "m" "x"]
    else if t = "member_bookmarks" then [brow 1 1 1]
    else if t = "tag" then [trow 1 "t" 1 1]
    else [], [⟨2, .int 1⟩, ⟨1, .int 7⟩, ⟨2, .int 2⟩, ⟨1, .int 1⟩, ⟨2, .int 1⟩], 0⟩

/-- C01 and C20 apply to every callback field of the demo project (which also has a CountField, a CacheKeyField, a many-to-many and
a generic relation); two of them are out of date here. -/
example (b : Backend) : KeysUnique (app b) staleDb ∧
    (Flushable (app b) decls forumOrm titles staleDb ∧ KeysOk titles staleDb ∧ StaleMarked titles staleDb) ∧
    (Flushable (app b) decls forumOrm tagsString staleDb ∧ KeysOk tagsString staleDb ∧ StaleMarked tagsString staleDb) ∧
    (Flushable (app b) decls postOrm forumTitle staleDb ∧ KeysOk forumTitle staleDb ∧ StaleMarked forumTitle staleDb) ∧
    (Flushable (app b) decls memberOrm bookmarkTitles staleDb ∧ KeysOk bookmarkTitles staleDb ∧ StaleMarked bookmarkTitles staleDb) ∧
    (∃ r ∈ staleDb.rows "post", ¬ forumTitle.Fresh staleDb r) ∧ ∃ r ∈ staleDb.rows "forum", ¬ titles.Fresh staleDb r := by
  refine ⟨by unfold KeysUnique; cases b <;> decide, ⟨flushable_titles b _, ?_, ?_⟩, ⟨flushable_tagsString b _, ?_, ?_⟩,
    ⟨flushable_forumTitle b _, ?_, ?_⟩, ⟨flushable_bookmarkTitles b _, ?_, ?_⟩, ?_, ?_⟩
  all_goals first | decide | (unfold KeysOk; decide) | (unfold StaleMarked; decide)

end Demo

namespace Chain
set_option maxRecDepth 100000

theorem stale_unique (b : Backend) (arr : List Mark → List Mark) : KeysUnique (app b arr) staleDb := by
  unfold KeysUnique
  cases b <;> simp only [app] <;> decide

/-- C01: flush returns after two passes; then the label, and the path that depends on it, are the new ones. -/
example (b : Backend) : ∃ db', (app b).flush 2 staleDb = .ok (some db') ∧
    (db'.rows "entry").map (fun r => r "label") = [.text "Z"] ∧ (db'.rows "comment").map (fun r => r "path") = [.text "Z"] ∧
    (∀ r ∈ db'.rows "entry", r "label" = label.value db' r) ∧ (∀ r ∈ db'.rows "comment", r "path" = path.value db' r) := by
  obtain ⟨db', h, h1, h2⟩ : ∃ db', (app b).flush 2 staleDb = .ok (some db') ∧
      ((db'.rows "entry").map (fun r => r "label") = [.text "Z"] ∧ (db'.rows "comment").map (fun r => r "path") = [.text "Z"]) :=
    flush_of (by cases b <;> decide +kernel)
  exact ⟨db', h, h1, h2,
    (C01_flush_partial (flushable_label b _ _) (stale_unique b _) (by unfold KeysOk; decide) (by unfold StaleMarked; decide) h).2,
    (C01_flush_partial (flushable_path b _ _) (stale_unique b _) (by unfold KeysOk; decide) (by unfold StaleMarked; decide) h).2⟩

/-- The blog is renamed; then somebody overwrites the path. -/
def history : List Stmt :=
  [.update "blog" (fun _ => true) (fun _ r => r.set "title" (.text "Z")), .update "comment" (fun _ => true) (fun _ r => r.set "path" (.text "!"))]

theorem history_legal (b : Backend) : LegalRun (engine b) path 100 history db := by
  apply legalRun_of_all
  intro s hs db
  simp only [history, List.mem_cons, List.not_mem_nil, or_false] at hs
  rcases hs with rfl | rfl <;> exact legal_set (by decide) (by decide)

/-- `C01_history_partial`: that history on a consistent database, and the flush after it. -/
example (b : Backend) : ∃ db', (app b).flush 2 ((engine b).run 100 history db) = .ok (some db') ∧
    (db'.rows "comment").map (fun r => r "path") = [.text "Z"] ∧ ∀ r ∈ db'.rows "comment", r "path" = path.value db' r := by
  obtain ⟨db', h, h1⟩ : ∃ db', (app b).flush 2 ((engine b).run 100 history db) = .ok (some db') ∧
      (db'.rows "comment").map (fun r => r "path") = [.text "Z"] := flush_of (by cases b <;> decide +kernel)
  have hu : KeysUnique (app b) ((engine b).run 100 history db) := by unfold KeysUnique; cases b <;> decide +kernel
  exact ⟨db', h, h1,
    (C01_history_partial (A := app b) (history_legal b) (by unfold KeysOk; decide) (by decide) (flushable_path b _ _) hu h).2⟩

/-- C20: the state after the first save() and before its markers are deleted; the path is out of date now, and marked. -/
example (b : Backend) : ∃ x, (app b).Visits staleDb x ∧ (x.rows "entry").map (fun r => r "label") = [.text "Z"] ∧
    (∃ r ∈ x.rows "comment", ¬ path.Fresh x r) ∧ StaleMarked path x := by
  obtain ⟨x, h1, h2, h3⟩ : ∃ x, (app b).saveObject ⟨12, .int 1⟩ staleDb = .ok x ∧
      ((x.rows "entry").map (fun r => r "label") = [.text "Z"] ∧ ∃ r ∈ x.rows "comment", ¬ path.Fresh x r) :=
    orm_of (by cases b <;> decide +kernel)
  have hv : (app b).Visits staleDb x := .inPass (by cases b <;> exact .saved h1)
  exact ⟨x, hv, h2, h3, (C20_crash_safe_partial (flushable_path b _ _) (stale_unique b _) (by unfold KeysOk; decide)
    (by unfold StaleMarked; decide) hv).1⟩

/-- C22: a deleted instance and a NULL object id. -/
example (b : Backend) : ∃ db', (app b).flush 1 { db with dirty := [⟨12, .int 9⟩, ⟨13, .null⟩, ⟨12, .int 9⟩] } = .ok (some db') ∧
    db'.dirty = [] ∧ db'.rows = db.rows ∧ (app b).flushSaves 1 { db with dirty := [⟨12, .int 9⟩, ⟨13, .null⟩, ⟨12, .int 9⟩] } = [] := by
  refine C22_only_targetless (A := app b) (fun l => List.Perm.refl l) ?_
  intro m hm
  simp only [List.mem_cons, List.not_mem_nil, or_false] at hm
  rcases hm with rfl | rfl | rfl
  · exact ⟨entryOrm, by cases b <;> rfl, .inr (by decide)⟩
  · exact ⟨commentOrm, by cases b <;> rfl, .inl rfl⟩
  · exact ⟨entryOrm, by cases b <;> rfl, .inr (by decide)⟩

/-- C23: the doubly marked entry is saved once on PostgreSQL and twice on sqlite and MySQL. -/
example : (app .postgresql).savedIn ((app .postgresql).snapshot staleDb) staleDb = [⟨12, .int 1⟩] ∧
    (app .sqlite).savedIn ((app .sqlite).snapshot staleDb) staleDb = [⟨12, .int 1⟩, ⟨12, .int 1⟩] ∧
    (app .mysql).savedIn ((app .mysql).snapshot staleDb) staleDb = [⟨12, .int 1⟩, ⟨12, .int 1⟩] := by decide +kernel
example (b : Backend) : (∃ db', (app b).pass staleDb = .ok db') ∧ KeysSafe (app b) ∧ KeysUnique (app b) staleDb ∧
    (app b).HasTarget staleDb ⟨12, .int 1⟩ :=
  ⟨(orm_of (P := fun _ => True) (by cases b <;> decide +kernel)).imp fun _ h => h.1, keysSafe b _, stale_unique b _, entryOrm,
    by cases b <;> rfl, by decide⟩

end Chain

end Denorm
