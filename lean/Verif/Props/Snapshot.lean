import Verif.Code.Snapshot
import Verif.Props.Session
import Verif.Props.Flush
/-!
# flush() in a transaction that reads from a snapshot (C61)
-/
namespace Denorm

section
variable {A : App} {D : List Denorm} {om : OrmModel} {cb : Callback}

theorem exec_drop {s : Stmt} {db db' : Db} (h : A.exec s db = .ok db') : { db' with dirty := db.dirty ++ db'.dirty.drop db.dirty.length } = db' := by
  unfold App.exec at h
  cases he : A.engine.exec A.fuel s db with
  | error e => rw [he] at h; cases h
  | ok x =>
    rw [he] at h
    cases h
    obtain ⟨new, hn, -⟩ := exec_withDirty he
    rw [hn, List.drop_left, ← hn]

theorem snapWrite_quiet (s : Stmt) (next pc : Pc) (db : Db) : A.snapWrite s next ⟨pc, db, [], db⟩ =
    match A.exec s db with
    | .ok db' => ⟨next, db', [], db'⟩
    | .error e => ⟨.failed e, db, [], db⟩ := by
  simp only [App.snapWrite]
  cases h : A.exec s db with
  | error e => rfl
  | ok db' => simp only [exec_drop h]

theorem snapStep_quiet (pc : Pc) (db : Db) : A.snapStep ⟨pc, db, [], db⟩ = ⟨(A.flushStep pc db).1, (A.flushStep pc db).2, [], (A.flushStep pc db).2⟩ := by
  have hr : (A.flushStep pc db).2 = db → (⟨(A.flushStep pc db).1, db, [], db⟩ : SnapState) =
      ⟨(A.flushStep pc db).1, (A.flushStep pc db).2, [], (A.flushStep pc db).2⟩ := by
    intro h
    rw [h]
  cases pc with
  | check => exact hr (by simp only [App.flushStep]; split <;> rfl)
  | fetch => rfl
  | loop ms =>
    cases ms with
    | nil => rfl
    | cons m ms => exact hr (by simp only [App.flushStep]; split <;> rfl)
  | saving m om mem fs ms =>
    cases fs with
    | nil =>
      simp only [App.snapStep, App.flushStep, snapWrite_quiet]
      split
      · cases A.exec (saveUpdate om mem) db <;> rfl
      · rfl
    | cons f fs => exact hr (by simp only [App.flushStep]; split <;> rfl)
  | inserting m om mem fs ms =>
    cases fs with
    | nil =>
      simp only [App.snapStep, App.flushStep, snapWrite_quiet]
      cases A.exec (.insert om.model.table [mem]) db <;> rfl
    | cons f fs => exact hr (by simp only [App.flushStep]; split <;> rfl)
  | deleting => rfl
  | done => rfl
  | failed => rfl

theorem snapTurns_quiet (k : Nat) (pc : Pc) (db : Db) : A.snapTurns (List.replicate k .flush) ⟨pc, db, [], db⟩ =
    ⟨(A.alone k (pc, db)).1, (A.alone k (pc, db)).2, [], (A.alone k (pc, db)).2⟩ := by
  induction k generalizing pc db with
  | zero => rfl
  | succ k ih =>
    simp only [List.replicate_succ, App.snapTurns, App.snapTurn, snapStep_quiet, ih]
    rfl

/-- C61. While no other session commits anything, the snapshot makes no difference: flush() goes through the same states, one access after the other. -/
theorem C61_quiet_partial (k : Nat) (db : Db) : (A.snapTurns (List.replicate k .flush) (.start db)).pc = (A.alone k (.check, db)).1 ∧
    (A.snapTurns (List.replicate k .flush) (.start db)).db = (A.alone k (.check, db)).2 := by
  rw [SnapState.start, snapTurns_quiet]
  exact ⟨rfl, rfl⟩

/-- C61, the result: flush() in such a transaction, without others, leaves nothing stale, whatever legal history precedes it. -/
theorem C61_flush_partial {fuel : Nat} {ss : List Stmt} {db0 : Db} (hL : LegalRun A.engine cb fuel ss db0) (hK : KeysOk cb db0)
    (hS : ∀ r ∈ db0.rows cb.model.table, r cb.field = cb.value db0 r ∨ Marked cb.model db0 r)
    (hF : Flushable A D om cb (A.engine.run fuel ss db0)) (hu : KeysUnique A (A.engine.run fuel ss db0)) (hp : PksKept A) {k : Nat} {st : SnapState}
    (hst : A.snapTurns (List.replicate k .flush) (.start (A.engine.run fuel ss db0)) = st) (h : st.pc = .done) :
    st.db.dirty = [] ∧ ∀ r ∈ st.db.rows cb.model.table, r cb.field = cb.value st.db r := by
  obtain ⟨h1, h2⟩ := C61_quiet_partial (A := A) k (A.engine.run fuel ss db0)
  rw [hst] at h1 h2
  obtain ⟨n, hn⟩ := (alone_is_flush hp _ st.db).1 ⟨k, Prod.ext (h1.symm.trans h) h2.symm⟩
  exact C01_history_partial hL hK hS hF hu hn

theorem snapTurn_ghosts (t : SnapTurn) {st : SnapState} (hg : st.ghosts ≠ []) (hp : st.pc ≠ .done) :
    (A.snapTurn t st).ghosts ≠ [] ∧ (A.snapTurn t st).pc ≠ .done := by
  cases t with
  | other s =>
    simp only [App.snapTurn]
    cases A.exec s st.db <;> exact ⟨hg, hp⟩
  | handled m =>
    simp only [App.snapTurn]
    cases A.flushOne m st.db with
    | error => exact ⟨hg, hp⟩
    | ok db' => exact ⟨by simp [hg], hp⟩
  | flush =>
    obtain ⟨pc, view, ghosts, db⟩ := st
    have hw : ∀ s next, next ≠ Pc.done → (A.snapWrite s next ⟨pc, view, ghosts, db⟩).ghosts ≠ [] ∧ (A.snapWrite s next ⟨pc, view, ghosts, db⟩).pc ≠ .done := by
      intro s next hn
      unfold App.snapWrite
      cases A.exec s db with
      | error => exact ⟨hg, by simp⟩
      | ok => exact ⟨hg, hn⟩
    cases pc with
    | check =>
      refine ⟨hg, ?_⟩
      simp only [App.snapTurn, App.snapStep, App.flushStep]
      rw [if_neg (show ¬ ((SnapState.mk .check view ghosts db).seen.dirty = []) from fun h => hg (List.append_eq_nil_iff.1 h).1)]
      simp
    | fetch => exact ⟨hg, by simp [App.snapTurn, App.snapStep, App.flushStep]⟩
    | loop ms =>
      refine ⟨by cases ms <;> exact hg, ?_⟩
      cases ms with
      | nil => simp [App.snapTurn, App.snapStep, App.flushStep]
      | cons m ms => simp only [App.snapTurn, App.snapStep, App.flushStep]; split <;> simp
    | saving m om mem fs ms =>
      cases fs with
      | nil =>
        simp only [App.snapTurn, App.snapStep]
        split
        · exact hw _ _ (by simp)
        · exact ⟨hg, by simp⟩
      | cons f fs =>
        refine ⟨hg, ?_⟩
        simp only [App.snapTurn, App.snapStep, App.flushStep]
        split <;> simp
    | inserting m om mem fs ms =>
      cases fs with
      | nil => exact hw _ _ (by simp)
      | cons f fs =>
        refine ⟨hg, ?_⟩
        simp only [App.snapTurn, App.snapStep, App.flushStep]
        split <;> simp
    | deleting m ms => exact ⟨hg, by simp [App.snapTurn, App.snapStep]⟩
    | done => exact absurd rfl hp
    | failed e => exact ⟨hg, by simp [App.snapTurn, App.snapStep, App.flushStep]⟩

theorem snapTurns_ghosts : ∀ (ts : List SnapTurn) {st : SnapState}, st.ghosts ≠ [] → st.pc ≠ .done → (A.snapTurns ts st).pc ≠ .done
  | [], _, _, hp => hp
  | t :: ts, _, hg, hp => snapTurns_ghosts ts (snapTurn_ghosts t hg hp).1 (snapTurn_ghosts t hg hp).2

/-- **C61 is violated**, in every project: if flush() of another process handles a marker that flush() sees, flush() never returns, whatever happens afterwards: the marker is
gone, but not for the snapshot, and no DELETE of this transaction can remove it. -/
theorem C61_violated_endless {m : Mark} {st : SnapState} {db' : Db} (hm : m ∈ st.view.dirty) (hp : st.pc ≠ .done) (h : A.flushOne m st.db = .ok db')
    (ts : List SnapTurn) : (A.snapTurns (.handled m :: ts) st).pc ≠ .done := by
  refine snapTurns_ghosts ts ?_ ?_ <;> simp only [App.snapTurn, h]
  · intro hg
    have : m ∈ st.ghosts ++ st.view.dirty.filter fun n => decide (n = m) := List.mem_append_right _ (List.mem_filter.2 ⟨hm, by simp⟩)
    rw [hg] at this
    cases this
  · exact hp

end

namespace Chain
set_option maxRecDepth 100000

/-- flush() has found the marker of entry 1; another session renames the blog; flush() goes on. -/
def renamedMeanwhile : List Turn := [.flush, .flush, .other (rename 1 "Y")] ++ List.replicate 20 .flush

/-- The same, for flush() in its own transaction. -/
def snapRenamed : List SnapTurn := [.flush, .flush, .other (rename 1 "Y")] ++ List.replicate 20 .flush

theorem considerate_renamed (b : Backend) : Considerate (app b) decls entryOrm label renamedMeanwhile (.check, busyDb) := by
  change Considerate (app b) decls entryOrm label (.other (rename 1 "Y") :: _) (((app b).alone 2 (.check, busyDb)))
  refine considerate_rename b (by cases b <;> decide +kernel) (by unfold KeysUnique; cases b <;> decide +kernel) ?_
  exact considerate_flush 20 _

/-- **C61 is violated**: the entry is computed from the blog's old title, which is in the snapshot, and the new marker is deleted with the old one. When flush() has returned, the entry
is out of date and not marked. With READ COMMITTED the same schedule is one of those for which C21 is proved, and ends with the right value. -/
theorem C61_violated : Considerate (app .mysql) decls entryOrm label renamedMeanwhile (.check, busyDb) ∧
    ((app .mysql).turns renamedMeanwhile (.check, busyDb)).1.returned = true ∧
    (∀ r ∈ ((app .mysql).turns renamedMeanwhile (.check, busyDb)).2.rows "entry",
      r "label" = label.value ((app .mysql).turns renamedMeanwhile (.check, busyDb)).2 r) ∧
    ((app .mysql).snapTurns snapRenamed (.start busyDb)).pc.returned = true ∧
    ∃ r ∈ ((app .mysql).snapTurns snapRenamed (.start busyDb)).db.rows "entry",
      r "label" ≠ label.value ((app .mysql).snapTurns snapRenamed (.start busyDb)).db r ∧
      ¬ Marked label.model ((app .mysql).snapTurns snapRenamed (.start busyDb)).db r := by
  refine ⟨considerate_renamed .mysql, ?_, ?_, ?_, ?_⟩ <;> decide +kernel

/-- Entry 1 is deleted by another session. -/
def removeEntry : Stmt := .delete "entry" fun r => decide (r "id" = .int 1)

/-- **C61 is violated**: another session deletes the entry after flush() has made its first query and before it has come to the entry's marker. The snapshot still has the entry:
flush() computes it, its UPDATE, which acts on what is committed, matches no row, and save() inserts the deleted entry again. With READ COMMITTED the entry is not found any more, and stays
deleted. -/
theorem C61_violated_deleted :
    ((app .mysql).turns ([.flush, .other removeEntry] ++ List.replicate 20 .flush) (.check, busyDb)).1.returned = true ∧
    (((app .mysql).turns ([.flush, .other removeEntry] ++ List.replicate 20 .flush) (.check, busyDb)).2.rows "entry").map (fun r => r "id") = [.int 2] ∧
    ((app .mysql).snapTurns ([.flush, .other removeEntry] ++ List.replicate 20 .flush) (.start busyDb)).pc.returned = true ∧
    (((app .mysql).snapTurns ([.flush, .other removeEntry] ++ List.replicate 20 .flush) (.start busyDb)).db.rows "entry").map (fun r => r "id") = [.int 2, .int 1] := by
  refine ⟨?_, ?_, ?_, ?_⟩ <;> decide +kernel

/-- `C61_flush_partial` applies: flush() in a transaction brings the entry up to date. -/
example : PksKept (app .mysql) ∧ ((app .mysql).snapTurns (List.replicate 20 .flush) (.start busyDb)).pc.returned = true ∧
    (((app .mysql).snapTurns (List.replicate 20 .flush) (.start busyDb)).db.rows "entry").map (fun r => r "label") = [.text "Z", .text "B"] := by
  refine ⟨by unfold PksKept; decide, ?_, ?_⟩ <;> decide +kernel

/-- `C61_violated_endless` applies: after its first query another process handles the marker of entry 1 (and its new value is right). -/
example : (⟨12, .int 1⟩ : Mark) ∈ ((app .mysql).snapTurns [.flush] (.start busyDb)).view.dirty ∧
    (∃ db', (app .mysql).flushOne ⟨12, .int 1⟩ ((app .mysql).snapTurns [.flush] (.start busyDb)).db = .ok db' ∧
      (db'.rows "entry").map (fun r => r "label") = [.text "Z", .text "B"]) ∧
    ∀ ts, ((app .mysql).snapTurns ([.flush, .handled ⟨12, .int 1⟩] ++ ts) (.start busyDb)).pc ≠ .done := by
  obtain ⟨db', h, h1⟩ : ∃ db', (app .mysql).flushOne ⟨12, .int 1⟩ ((app .mysql).snapTurns [.flush] (.start busyDb)).db = .ok db' ∧
      (db'.rows "entry").map (fun r => r "label") = [.text "Z", .text "B"] := orm_of (by decide +kernel)
  have hm : (⟨12, .int 1⟩ : Mark) ∈ ((app .mysql).snapTurns [.flush] (.start busyDb)).view.dirty := by decide +kernel
  refine ⟨hm, ⟨db', h, h1⟩, fun ts => ?_⟩
  exact C61_violated_endless (st := (app .mysql).snapTurns [.flush] (.start busyDb)) hm (fun e => by cases e) h ts

end Chain

end Denorm
