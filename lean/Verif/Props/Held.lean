import Verif.Lemmas.Held
import Verif.Props.BulkUnsafe
/-!
# Instances that hold related objects (C86)

Full statement of C86: whatever related objects an instance has loaded before, and however old they are, saving it loses nothing: the stored value is right or the instance is marked, CountFields are
right, and after flush() everything is right. With or without DENORM_BULK_UNSAFE_TRIGGERS.
-/
namespace Denorm

section
variable {A : App} {D : List Denorm} {cb : Callback} {om : OrmModel} {db db' : Db} {a : AggDenorm} {view : Callback → Db}

/-- C86, without the setting: after any program whose instances hold any related objects, old, new or changed in memory, each computed value is right or its instance is marked. -/
theorem C86_marked_partial (hE : Installed A.engine D) (hD : WellDeclared A.engine.backend D cb) (hN : NoReentry A.engine)
    (hpk : ∀ om ∈ A.models, om.model.pk ∉ om.cols) (hp : ∀ om ∈ A.models, ∀ p ∈ cb.pks, p.1 = om.model.table → p.2 ∉ om.cols) :
    ∀ (cs : List HeldCall) (db : Db), (∀ c ∈ cs, c.Proper) → LegalHeld A cb cs db → KeysOk cb db → StaleMarked cb db → KeysOk cb (A.heldCalls cs db) ∧
      ∀ r ∈ (A.heldCalls cs db).rows cb.model.table, r cb.field = cb.value (A.heldCalls cs db) r ∨ Marked cb.model (A.heldCalls cs db) r
  | [], db, _, _, hK, hS => ⟨hK, fun r hr => (staleMarked_iff.1 hS r hr).symm⟩
  | c :: cs, db, hP, hL, hK, hS => by
    obtain ⟨hL1, hL2⟩ := hL
    have hP' : ∀ c ∈ cs, c.Proper := fun c hc => hP c (List.mem_cons_of_mem _ hc)
    simp only [App.heldCalls]
    cases hc : A.heldCall db c with
    | error e =>
      rw [hc] at hL2
      exact C86_marked_partial hE hD hN hpk hp cs db hP' hL2 hK hS
    | ok db' =>
      rw [hc] at hL2
      obtain ⟨c', hL', hc'⟩ := heldCall_legal (hP c (List.mem_cons_self ..)) hL1 hc
      have hmem : ∀ om ∈ A.asPlain.models, ∃ om' ∈ A.models, om.model = om'.model ∧ om.cols = om'.cols := by
        intro om hom
        rcases List.mem_append.1 hom with h | h
        · exact ⟨om, h, rfl, rfl⟩
        · obtain ⟨om', h', rfl⟩ := List.mem_map.1 h
          exact ⟨om', h', rfl, asPlain_cols⟩
      rcases call_legal (A := A.asPlain) (fun om hom => by obtain ⟨om', h, h1, h2⟩ := hmem om hom; rw [h1, h2]; exact hpk om' h)
        (fun om hom => by obtain ⟨om', h, h1, h2⟩ := hmem om hom; rw [h1, h2]; exact hp om' h) hL' hc' with rfl | ⟨s, hs, he⟩
      · exact C86_marked_partial hE hD hN hpk hp cs _ hP' hL2 hK hS
      · obtain ⟨hK', hg⟩ := track_exec (tracks_of_installed hE hD) hN (freshTracked cb) he hs hK (staleMarked_iff.1 hS)
        exact C86_marked_partial hE hD hN hpk hp cs db' hP' hL2 hK' (staleMarked_iff.2 hg)

/-- C86, the result: after flush() every value is right. (flush() loads instances anew: they hold nothing.) -/
theorem C86_flush_partial {cs : List HeldCall} (hP : ∀ c ∈ cs, c.Proper) (hL : LegalHeld A cb cs db) (hK : KeysOk cb db) (hS : StaleMarked cb db)
    (hF : Flushable A D om cb (A.heldCalls cs db)) (hu : KeysUnique A (A.heldCalls cs db)) {n : Nat} (h : A.flush n (A.heldCalls cs db) = .ok (some db')) :
    db'.dirty = [] ∧ ∀ r ∈ db'.rows cb.model.table, r cb.field = cb.value db' r := by
  obtain ⟨hK', hg⟩ := C86_marked_partial hF.installed hF.declared hF.noReentry (fun om h => hF.safe.kept om h om h rfl) hF.pks cs db hP hL hK hS
  exact C01_flush_partial hF hu hK' (staleMarked_iff.2 fun r hr => (hg r hr).symm) h

/-- C86, CountFields: they are right after every such program. -/
theorem C86_count (hE : Installed A.engine D) (hD : AggDeclared A.engine.backend D a) (hN : NoReentry A.engine) (hc : a.agg = .count) :
    ∀ (cs : List HeldCall) (db : Db), (∀ c ∈ cs, c.Proper) → CountHeld A a cs db → AggOk a db → AggOk a (A.heldCalls cs db)
  | [], _, _, _, hok => hok
  | c :: cs, db, hP, hL, hok => by
    obtain ⟨hL1, hL2⟩ := hL
    have hP' : ∀ c ∈ cs, c.Proper := fun c hc => hP c (List.mem_cons_of_mem _ hc)
    simp only [App.heldCalls]
    cases h : A.heldCall db c with
    | error e =>
      rw [h] at hL2
      exact C86_count hE hD hN hc cs db hP' hL2 hok
    | ok db' =>
      rw [h] at hL2
      obtain ⟨c', hL', hc'⟩ := heldCall_count (hP c (List.mem_cons_self ..)) hL1 h
      exact C86_count hE hD hN hc cs db' hP' hL2 (count_call hE hD hN hc hL' hc' hok)

/-- An instance that holds what the database contains is saved as in C62. -/
theorem C86_current (hv : ∀ cb, view cb = db) (om : OrmModel) (mem : Row) (cols : List Col) (k : Val) :
    A.saveHeld view om mem db = A.save om mem db ∧ A.saveFieldsHeld view om cols mem db = A.saveFields om cols mem db ∧ A.createHeld view om mem k db = A.create om mem k db := by
  refine ⟨?_, ?_, ?_⟩
  · simp only [App.saveHeld, App.save, preSaveAllHeld_same hv]
    rfl
  · simp only [App.saveFieldsHeld, App.saveFields, preSaveAllHeld_same hv]
    rfl
  · simp only [App.createHeld, App.create, preSaveAllHeld_same hv]
    rfl

/-- **C86 is violated** with DENORM_BULK_UNSAFE_TRIGGERS, in every project in which the model's table has no trigger (no other declaration depends on it): save() stores what the callback returns for the related
objects that the instance holds, nothing is marked, and flush() does nothing. If they are old, so that the value is not the right one, it stays wrong. -/
theorem C86_violated_unsafe (hno : ∀ tr ∈ A.engine.triggers, tr.table ≠ cb.model.table) (hC : Computes om cb) (hT : ∀ d ∈ cb.deps, d.dep.this = cb.model) (hW : ∀ d ∈ cb.deps, d.Watched)
    (hd : db.dirty = []) {mem mem' : Row} (hin : InDatabase om mem db) (h : A.saveHeld view om mem db = .ok (db', mem')) :
    (∃ r ∈ db'.rows cb.model.table, r cb.model.pk = mem cb.model.pk ∧ r cb.field = cb.value (view cb) r) ∧ db'.dirty = [] ∧ ∀ n, A.flush n db' = .ok (some db') := by
  have hany := any_isRowOf.2 hin
  unfold App.saveHeld at h
  cases h1 : preSaveAllHeld A view om.model db false om.saved mem with
  | error e => rw [h1] at h; cases h
  | ok mem1 =>
    rw [h1] at h
    simp only at h
    rw [if_pos hany] at h
    cases he : A.exec (saveUpdate om mem1) db with
    | error e => rw [he] at h; cases h
    | ok d =>
      rw [he] at h
      simp only [Except.ok.injEq, Prod.mk.injEq] at h
      obtain ⟨rfl, rfl⟩ := h
      have hq : Silent A.engine om.model.table (isRowOf om.model (mem1 om.model.pk)) (fun _ r c => if c ∈ om.saved.map SaveField.col then mem1 c else r c) db := by
        intro r _ _ x fr
        simp only [Engine.fired]
        rw [List.filter_eq_nil_iff.2]
        · rfl
        · intro tr htr hen
          simp only [Engine.enters, Bool.and_eq_true, decide_eq_true_eq] at hen
          exact hno tr htr (by rw [← hC.model]; simp_all)
      have hI := quiet_exec_ok hq (exec_ok he)
      have hk1 : mem1 om.model.pk = mem om.model.pk := preSaveAllHeld_other h1 _ fun f hf e => hC.pk (List.mem_map.2 ⟨f, hf, e⟩)
      have hdirty : d.dirty = [] := hI.dirty.trans hd
      refine ⟨?_, hdirty, fun n => by cases n <;> simp [App.flush, hdirty]⟩
      obtain ⟨r, hr, hrk, hrn⟩ := hin
      obtain ⟨i, hi⟩ := List.getElem?_of_mem hr
      have hdone := hI.done i (by simp) r hi
      rw [if_pos (show isRowOf om.model (mem1 om.model.pk) r = true from Val.sqlEq_iff.2 ⟨hrk.trans hk1.symm, by rw [hrk]; exact hrn⟩)] at hdone
      obtain ⟨_, hrow⟩ := hdone
      rw [← hC.model]
      refine ⟨_, List.mem_of_getElem? hrow, ?_, ?_⟩
      · exact (if_neg hC.pk).trans hrk
      · exact hC.written (mem := mem1) (r := r) hT (oneWay_of hW) (hC.held hT (oneWay_of hW) h1) (hrk.trans hk1.symm)

end

namespace Chain
set_option maxRecDepth 100000

/-- A blog that was renamed, from "O" to "A", and an entry that is right. -/
def renamedBlog : Db := ⟨fun t => if t = "blog" then [blrow 1 "A", blrow 2 "B"] else if t = "entry" then [erow 1 1 "A"] else [], [], 0⟩
/-- What an instance of the entry that was loaded before holds. -/
def heldBlogs : Db := ⟨fun t => if t = "blog" then [blrow 1 "O", blrow 2 "B"] else [], [], 0⟩

/-- The old instance is saved; an entry is created with a blog that was loaded before. -/
def heldProgram : List HeldCall :=
  [.save (fun _ => heldBlogs) entryOrm (erow 1 1 "O"), .create (fun _ => heldBlogs) entryOrm (erow 0 1 "?") (.int 2), .saveFields (fun _ => heldBlogs) entryOrm ["label"] (erow 2 1 "?"),
    .call (.stmt (.delete "blog" fun r => decide (r "id" = .int 2)))]

theorem heldProgram_proper : ∀ c ∈ heldProgram, c.Proper := by
  intro c hc
  have : entryOrm.Proper := ⟨by decide, by decide⟩
  simp only [heldProgram, List.mem_cons, List.not_mem_nil, or_false] at hc
  rcases hc with rfl | rfl | rfl | rfl
  · exact this
  · exact this
  · exact this
  · trivial

theorem heldProgram_legal (b : Backend) : LegalHeld (app b) label heldProgram renamedBlog := by
  have l1 : ∀ db, LegalCall (app b) label db (.save entryOrm (erow 1 1 "O")) := fun db => ⟨by simp [app], fun _ => newKey_label b db (by simp [app]) (by decide)⟩
  have l2 : ∀ db, LegalCall (app b) label db (.create entryOrm (erow 0 1 "?") (.int 2)) := fun db => newKey_label b db (by simp [app]) (by decide)
  have l3 : ∀ db, LegalCall (app b) label db (.saveFields entryOrm ["label"] (erow 2 1 "?")) := fun db => by simp [LegalCall, app]
  have l4 : ∀ db, LegalCall (app b) label db (.stmt (.delete "blog" fun r => decide (r "id" = .int 2))) := by
    intro db d hd
    simp only [label, List.mem_singleton] at hd
    subst hd
    simp [labelDep, Dep.m2mTable]
  refine ⟨l1 _, ?_⟩
  split <;> refine ⟨l2 _, ?_⟩ <;> split <;> refine ⟨l3 _, ?_⟩ <;> split <;> refine ⟨l4 _, ?_⟩ <;> split <;> trivial

/-- The hypotheses of `C86_marked_partial` and `C86_flush_partial` are met: the old title is stored, and repaired by flush(). -/
example (b : Backend) : (((app b).heldCalls heldProgram renamedBlog).rows "entry").map (fun r => r "label") = [.text "O", .text "O"] ∧
    ∃ db', (app b).flush 3 ((app b).heldCalls heldProgram renamedBlog) = .ok (some db') ∧
    (db'.rows "entry").map (fun r => r "label") = [.text "A", .text "A"] ∧ ∀ r ∈ db'.rows "entry", r "label" = label.value db' r := by
  refine ⟨by cases b <;> decide +kernel, ?_⟩
  obtain ⟨db', h, h1⟩ : ∃ db', (app b).flush 3 ((app b).heldCalls heldProgram renamedBlog) = .ok (some db') ∧
      (db'.rows "entry").map (fun r => r "label") = [.text "A", .text "A"] := flush_of (by cases b <;> decide +kernel)
  have hu : KeysUnique (app b) ((app b).heldCalls heldProgram renamedBlog) := by unfold KeysUnique; cases b <;> decide +kernel
  exact ⟨db', h, h1, (C86_flush_partial (A := app b) heldProgram_proper (heldProgram_legal b) (by unfold KeysOk; decide) (by unfold StaleMarked; decide) (flushable_label b _ _) hu h).2⟩

/-- The project with nothing but the label, and `DENORM_BULK_UNSAFE_TRIGGERS`. -/
def labelApp (b : Backend) : App := { app b with engine := ⟨b, installedTriggers b [label.denorm true], fun _ => 0⟩ }

/-- The hypotheses of `C86_violated_unsafe` are met: before the call every value is right and nothing is marked; afterwards the label is the blog's old title for good. -/
example (b : Backend) : (∀ r ∈ renamedBlog.rows "entry", r "label" = label.value renamedBlog r) ∧ Installed (labelApp b).engine [label.denorm true] ∧
    ∃ db' mem', (labelApp b).saveHeld (fun _ => heldBlogs) entryOrm (erow 1 1 "O") renamedBlog = .ok (db', mem') ∧ (∃ r ∈ db'.rows "entry", r "label" ≠ label.value db' r) ∧
    db'.dirty = [] ∧ ∀ n, (labelApp b).flush n db' = .ok (some db') := by
  refine ⟨by decide, rfl, ?_⟩
  obtain ⟨⟨db', mem'⟩, h, h1⟩ := save_of (x := (labelApp b).saveHeld (fun _ => heldBlogs) entryOrm (erow 1 1 "O") renamedBlog)
    (P := fun x => ∃ r ∈ x.1.rows "entry", r "label" ≠ label.value x.1 r) (by cases b <;> decide +kernel)
  exact ⟨db', mem', h, h1, (C86_violated_unsafe (A := labelApp b) (cb := label) (by cases b <;> decide) computes (by decide) (by decide) rfl (by unfold InDatabase; decide) h).2⟩

end Chain

namespace Demo
set_option maxRecDepth 100000

/-- `C86_count` applies: a forum is saved by a program that holds an empty database and a wrong count, and gets a post. -/
def heldForum : List HeldCall := [.save (fun _ => ⟨fun _ => [], [], 0⟩) forumOrm (frow 1 "G" "" "" 7), .create (fun _ => ⟨fun _ => [], [], 0⟩) postOrm (prow 0 1 "x" "" 0) (.int 1)]

example (b : Backend) : (((app b).heldCalls heldForum lonelyForum).rows "forum").map (fun r => (r "title", r "post_count")) = [(.text "G", .int 1)] ∧
    AggOk postCount ((app b).heldCalls heldForum lonelyForum) := by
  have hf : forumOrm.Holds postCount := by unfold OrmModel.Holds; decide
  have hp : postOrm.Holds postCount := by unfold OrmModel.Holds; decide
  refine ⟨by cases b <;> decide +kernel, C86_count (A := app b) (installed b) (ad_postCount b) (noReentry b) rfl _ _ ?_ ?_ (by unfold AggOk; decide)⟩
  · intro c hc
    simp only [heldForum, List.mem_cons, List.not_mem_nil, or_false] at hc
    rcases hc with rfl | rfl
    · exact ⟨by decide, by decide⟩
    · exact ⟨by decide, by decide⟩
  · refine ⟨⟨⟨by decide, by decide⟩, hf, by decide, by decide⟩, ?_⟩
    split <;> refine ⟨⟨⟨by decide, by decide⟩, hp, fun h => absurd h (by decide)⟩, ?_⟩ <;> split <;> trivial

end Demo

end Denorm
