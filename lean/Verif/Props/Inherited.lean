import Verif.Lemmas.Inherited
import Verif.Props.Columns
import Verif.Props.Tracking
/-!
# Inherited fields of multi-table children (C68)

Full statement of C68: a `@denormalized` field may read every field of the instances it is allowed to read, stored in whichever table: after any change of
such a field, by `QuerySet.update()` or `save()` of the child or of the parent, the instance is marked until flush() recomputes it.

The code attaches triggers to the child's own table only ("FIXME: need to check get_parent_list and add triggers to those", base.py:107-108), so this holds
only for fields that declare the parent as a dependency.
-/
namespace Denorm

section
variable {E : Engine} {D : List Denorm} {v : Inheriting} {fuel : Nat}

/-- A table no declaration has a trigger on: a statement on it marks nothing and changes no other table, so whatever was computed from it before is kept. -/
theorem C68_unseen (hE : Installed E D) {s : Stmt} (hno : ∀ dn ∈ D, ∀ g ∈ dn.triggers, g.table ≠ s.table) {db db' : Db} (he : E.exec fuel s db = .ok db') :
    db'.dirty = db.dirty ∧ ∀ t, t ≠ s.table → db'.rows t = db.rows t :=
  exec_blind (installed_blind hE hno) rfl he

/-- A declaration that does not name the parent is attached to the table of the child alone. -/
theorem C68_child_only (v : Inheriting) : ∀ g ∈ v.denorm.triggers, g.table = v.child.table := by
  intro g hg
  simp only [Inheriting.denorm, Denorm.triggers, selfTriggers, mkTrigger, Bool.false_eq_true, if_false, List.flatMap_nil, List.append_nil,
    List.mem_cons, List.not_mem_nil, or_false] at hg
  rcases hg with rfl | rfl <;> rfl

/-- C68 fails for every such field: if no other declaration happens to watch the parent's table, any statement on it that changes what the callback returns
leaves an instance that was up to date with its old value and without a marker. -/
theorem C68_lost (hE : Installed E D) (hD : ∀ dn ∈ D, dn = v.denorm ∨ ∀ g ∈ dn.triggers, g.table ≠ v.parent.table) (hne : v.child.table ≠ v.parent.table)
    {s : Stmt} (hs : s.table = v.parent.table) {db db' : Db} (he : E.exec fuel s db = .ok db') {r : Row} (hr : r ∈ db.rows v.child.table)
    (hf : v.Fresh db r) (hm : ¬ Marked v.child db r) (hc : v.value db' r ≠ v.value db r) :
    r ∈ db'.rows v.child.table ∧ ¬ v.Fresh db' r ∧ ¬ Marked v.child db' r := by
  obtain ⟨h1, h2⟩ := C68_unseen hE (s := s) (fun dn hdn g hg => by
    rcases hD dn hdn with rfl | h
    · rw [C68_child_only v g hg, hs]; exact hne
    · rw [hs]; exact h g hg) he
  refine ⟨by rw [h2 _ (hs ▸ hne)]; exact hr, fun h => hc ?_, ?_⟩
  · exact (h.symm.trans hf)
  · unfold Marked at hm ⊢
    rw [h1]; exact hm

/-- C68, the part that holds: with `@depend_on_related(Parent, foreign_key=<parent link>)` the inherited fields are tracked through any history. Missing:
without that declaration (see the violations below), and dependencies on multi-table children whose inherited fields are read. -/
theorem C68_declared_partial (hE : Installed E D) (hD : WellDeclared E.backend D v.withParent) (hN : NoReentry E) {ss : List Stmt} {db0 : Db}
    (hL : LegalRun E v.withParent fuel ss db0) (hK : KeysOk v.withParent db0) (hP0 : v.ParentKeys db0) (hP : v.ParentKeys (E.run fuel ss db0))
    (h0 : v.StaleMarked db0) : v.StaleMarked (E.run fuel ss db0) :=
  (withParent_staleMarked hP).1 (stale_marked_preserved hE hD hN hL hK ((withParent_staleMarked hP0).2 h0))

end

namespace Renamed
open Demo (fld fkf row)
set_option maxRecDepth 100000

def parentLink : Field := fkf "post_ptr" "<class 'app.Post'>"

/-- `Thread.headline` is computed from the inherited `title`. -/
def headline : Inheriting :=
  { child := thread, parent := Demo.post, link := parentLink, field := "headline", own := [], inherited := ["title"], fn := fun _ l => l.headD .null }

def bare (b : Backend) : Engine := ⟨b, installedTriggers b [headline.denorm], fun _ => 0⟩
def linked (b : Backend) : Engine := ⟨b, installedTriggers b [headline.withParent.denorm], fun _ => 0⟩

/-- The dependency on the parent is found by the library. -/
example : resolvedModel thread Demo.post none none = .ok (.forward parentLink) := by rfl

/-- Post 1 is also a thread, post 2 is not. -/
def threads : Db :=
  ⟨fun t => if t = "post" then [Demo.prow 1 1 "x" "A" 0, Demo.prow 2 1 "y" "A" 0]
    else if t = "thread" then [row [("post_ptr_id", .int 1), ("headline", .text "x"), ("board_id", .int 1)]]
    else if t = "forum" then [Demo.frow 1 "A" "x" "" 0]
    else [], [], 0⟩

/-- `Thread.objects.filter(pk=1).update(title='z')`: Django sends this to the table that has the column. -/
def renameThread : Stmt := .update "post" (fun r => r "id" == .int 1) fun _ r => r.set "title" (.text "z")

/-- C68 is violated: all threads are up to date; after `Thread.objects.filter(pk=1).update(title='z')` the thread's headline is out of date and it has no
marker, so flush() returns at once. On every backend. -/
theorem C68_violated (b : Backend) : Installed (bare b) [headline.denorm] ∧ (∀ r ∈ threads.rows "thread", headline.Fresh threads r) ∧
    ∃ db', (bare b).exec 10 renameThread threads = .ok db' ∧ (∃ r ∈ db'.rows "thread", ¬ headline.Fresh db' r ∧ ¬ Marked thread db' r) ∧
      ∀ (A : App) (n : Nat), A.flush n db' = .ok (some db') := by
  refine ⟨rfl, by decide, ?_⟩
  obtain ⟨db', he, h⟩ := ok_of (x := (bare b).exec 10 renameThread threads)
    (P := fun db' => (∃ r ∈ db'.rows "thread", ¬ headline.Fresh db' r ∧ ¬ Marked thread db' r) ∧ db'.dirty = []) (by cases b <;> decide)
  refine ⟨db', he, h.1, fun A n => ?_⟩
  unfold App.flush
  rw [if_pos h.2]

/-- With the dependency on the parent declared, the same statement marks the thread. -/
theorem wd_headline (b : Backend) : WellDeclared b [headline.withParent.denorm] headline.withParent where
  declared := by simp
  agree := by cases b <;> decide
  table := by decide
  own := by decide
  this := by decide
  watched := by decide
  keys := by decide
  links := by simp [headline, Inheriting.withParent, Dep.m2mTable]

example (b : Backend) : headline.StaleMarked ((linked b).run 10 [renameThread] threads) ∧
    ((linked b).run 10 [renameThread] threads).dirty = [⟨7, .int 1⟩] ∧ ∃ r ∈ ((linked b).run 10 [renameThread] threads).rows "thread",
      ¬ headline.Fresh ((linked b).run 10 [renameThread] threads) r := by
  refine ⟨C68_declared_partial (E := linked b) rfl (wd_headline b) (noReentry_of (fun _ => 0) (by cases b <;> decide)) ?_ (by unfold KeysOk; decide)
    ?_ ?_ ?_, by cases b <;> decide, by cases b <;> decide⟩
  · refine legalRun_of_all (fun s hs db => ?_) _
    rw [List.mem_singleton] at hs
    subst hs
    have hp : ∀ p ∈ headline.withParent.pks, p.2 ≠ "title" := by decide
    intro p hp' _ x r
    exact if_neg (hp p hp')
  · unfold Inheriting.ParentKeys; decide
  · unfold Inheriting.ParentKeys; cases b <;> decide
  · unfold Inheriting.StaleMarked; decide

/-- Threads with a ForeignKey of their own to Forum. -/
def board : Field := fkf "board" "<class 'app.Forum'>"
def boardThread : Model := { thread with fields := thread.fields ++ [board] }

/-- What `Forum.titles` should be: the titles of the threads of the forum, read through the ORM (`t.title for t in self.thread_set.all()`). -/
def threadTitles (db : Db) (forum : Row) : Val :=
  Demo.concat (((db.rows "thread").filter fun t => Val.sqlEq (t "board_id") (forum "id")).flatMap fun t =>
    ((db.rows "post").filter fun p => Val.sqlEq (p "id") (t "post_ptr_id")).map fun p => [p "title"])

/-- `Forum.titles` with `@depend_on_related(Thread, foreign_key='board')`. -/
def boardDecls : List Denorm := [.callback false Demo.forum "titles" [] [⟨Demo.forum, boardThread, .backward board, []⟩]]

/-- C68 is violated for related instances, too, although their model is declared as a dependency. -/
theorem C68_violated_dependency (b : Backend) : (∀ r ∈ threads.rows "forum", r "titles" = threadTitles threads r) ∧
    ∃ db', (⟨b, installedTriggers b boardDecls, fun _ => 0⟩ : Engine).exec 10 renameThread threads = .ok db' ∧
      (∃ r ∈ db'.rows "forum", r "titles" ≠ threadTitles db' r ∧ ¬ Marked Demo.forum db' r) ∧ ∀ (A : App) (n : Nat), A.flush n db' = .ok (some db') := by
  refine ⟨by decide, ?_⟩
  obtain ⟨db', he, h⟩ := ok_of (x := (⟨b, installedTriggers b boardDecls, fun _ => 0⟩ : Engine).exec 10 renameThread threads)
    (P := fun db' => (∃ r ∈ db'.rows "forum", r "titles" ≠ threadTitles db' r ∧ ¬ Marked Demo.forum db' r) ∧ db'.dirty = []) (by cases b <;> decide)
  refine ⟨db', he, h.1, fun A n => ?_⟩
  unfold App.flush
  rw [if_pos h.2]

/-- The dependency itself is sound: it works for the columns of the child's own table (here: the thread moves to another board). -/
example : (match (⟨.postgresql, installedTriggers .postgresql boardDecls, fun _ => 0⟩ : Engine).exec 10
      (.update "thread" (fun _ => true) fun _ r => r.set "board_id" .null) threads with
    | .ok db' => decide (⟨1, .int 1⟩ ∈ db'.dirty)
    | .error _ => false) = true := by decide

/-- `C68_lost` applies to the thread. -/
example (b : Backend) : ∃ db', (bare b).exec 10 renameThread threads = .ok db' ∧ ∃ r ∈ db'.rows "thread", ¬ headline.Fresh db' r ∧ ¬ Marked thread db' r := by
  obtain ⟨db', he, h⟩ := ok_of (x := (bare b).exec 10 renameThread threads)
    (P := fun db' => ∀ r ∈ threads.rows "thread", headline.value db' r ≠ headline.value threads r) (by cases b <;> decide)
  have hr : row [("post_ptr_id", .int 1), ("headline", .text "x"), ("board_id", .int 1)] ∈ threads.rows "thread" := List.mem_cons_self ..
  obtain ⟨h1, h2⟩ := C68_lost (E := bare b) (v := headline) rfl (fun dn hdn => .inl (List.mem_singleton.1 hdn)) (by decide) rfl he hr (by decide)
    (by unfold Marked; decide) (h _ hr)
  exact ⟨db', he, _, h1, h2⟩

end Renamed
end Denorm
