import Verif.Lemmas.Hooks
import Verif.Props.Flush
/-!
# C65, C66: instances with their own truth value, and instances that cannot be saved

C65: flush() recomputes every marked instance that exists, whatever `bool(instance)` is.
C66: an instance whose save() fails does not keep flush() from bringing the others up to date, and nothing is lost by the failure.
-/
namespace Denorm

section
variable {A : App} {D : List Denorm} {om : OrmModel} {cb : Callback} {H H' : Hooks} {db db' x : Db}

/-- C65: the fields of a model whose instances are truthy are right when flush() has returned, whatever the truth values of other models'
instances. Missing: models with falsy instances (`C65_violated`). -/
theorem C65_truthy_partial (hF : Flushable A D om cb db) (hu : KeysUnique A db) (hK : KeysOk cb db) (hS : StaleMarked cb db)
    (ht : ∀ x om r, om.model = cb.model → H.truth x om r = true) {n : Nat} (h : A.flushWith H n db = (db', .returned)) :
    db'.dirty = [] ∧ ∀ r ∈ db'.rows cb.model.table, r cb.field = cb.value db' r := by
  obtain ⟨hG, hd⟩ := good_flushWith ht n ⟨hF, hu, hK, hS⟩ h
  refine ⟨hd rfl, fun r hr => ?_⟩
  by_cases hf : cb.Fresh db' r
  · exact hf
  · have := hG.stale r hr hf
    simp [Marked, hd rfl] at this

/-- C66: however a call of flush() ends (an exception at any instance, before or after it was written), every out-of-date instance is still
marked, and calling flush() again, once nothing fails, makes everything right. Missing: that the other instances are brought up to date
in spite of the failure (`C66_violated`). -/
theorem C66_nothing_lost_partial (hF : Flushable A D om cb db) (hu : KeysUnique A db) (hK : KeysOk cb db) (hS : StaleMarked cb db)
    (ht : ∀ x om r, om.model = cb.model → H.truth x om r = true) {n : Nat} {o : Outcome} (h : A.flushWith H n db = (x, o)) :
    StaleMarked cb x ∧ ∀ (n' : Nat) (db' : Db), A.flush n' x = .ok (some db') →
      db'.dirty = [] ∧ ∀ r ∈ db'.rows cb.model.table, r cb.field = cb.value db' r := by
  obtain ⟨hG, -⟩ := good_flushWith ht n ⟨hF, hu, hK, hS⟩ h
  exact ⟨hG.stale, fun n' db' h' => C01_flush_partial hG.flushable hG.keys hG.keysOk hG.stale h'⟩

/-- The model of flush() used elsewhere is this one where instances are truthy and nothing fails. -/
theorem C65_plain (ht : ∀ x om r, H.truth x om r = true) (hr : ∀ x om r, H.raises x om r = false) (hl : ∀ x om r, H.late x om r = false)
    (n : Nat) : A.flushWith H n db = (db', .returned) ↔ A.flush n db = .ok (some db') :=
  flushWith_plain ht hr hl n

/-- C66 is violated: where the first marked instance cannot be saved, no number of calls of flush() changes anything. -/
theorem C66_violated_stuck (hd : db.dirty ≠ []) {m : Mark} {ms : List Mark} (hs : A.snapshot db = m :: ms) {om : OrmModel} {r : Row}
    (hc : A.contentObject db m = .ok (some (om, r))) (ht : H.truth db om r = true) (hr : H.raises db om r = true) (n k : Nat) :
    A.callsWith H (n + 1) k db = db :=
  stuck hd hs (by simp only [App.flushOneWith, hc, ht, hr, if_true]) n k

/-- C66 is violated by a marker of a model that has been removed: flush() never returns normally as long as the marker is there. -/
theorem C66_violated_removed_model (hp : ∀ l, (A.arrange l).Perm l) {m : Mark} (hm : m ∈ db.dirty) (h : ∀ om ∈ A.models, om.model.ct ≠ m.ct)
    (n : Nat) : (A.flushWith H (n + 1) db).2 = .raised := by
  have hd : db.dirty ≠ [] := fun h0 => by rw [h0] at hm; cases hm
  unfold App.flushWith
  rw [if_neg hd]
  have := flushListWith_noModel (H := H) h (A.snapshot db) ((mem_snapshot hp).2 hm) db
  cases hs : A.flushListWith H (A.snapshot db) db with
  | mk y b =>
    rw [hs] at this
    simp only at this
    subst this
    rfl

end

namespace Chain
set_option maxRecDepth 100000

theorem flushWith_of {A : App} {H : Hooks} {n : Nat} {db : Db} {P : Db → Prop} {o : Outcome} (h : (A.flushWith H n db).2 = o ∧ P (A.flushWith H n db).1) :
    ∃ db', A.flushWith H n db = (db', o) ∧ P db' := ⟨_, Prod.ext rfl h.1, h.2⟩

/-- `class Entry: def __len__(self): return self.comment_set.count()`-like: the entries are falsy, all other instances truthy. -/
def falsyEntries : Hooks := ⟨fun _ om _ => om.model.ct != 12, fun _ _ _ => false, fun _ _ _ => false⟩

/-- C65 is violated: a stale instance that is falsy has its marker deleted without being saved; flush() returns, no marker is left and the
field stays wrong. -/
theorem C65_violated (b : Backend) : ∃ (A : App) (D : List Denorm) (om : OrmModel) (cb : Callback) (H : Hooks) (db db' : Db), A.engine.backend = b ∧
    Flushable A D om cb db ∧ KeysUnique A db ∧ KeysOk cb db ∧ StaleMarked cb db ∧ (∀ x om r, H.raises x om r = false) ∧
    A.flushWith H 2 db = (db', .returned) ∧ db'.dirty = [] ∧ ∃ r ∈ db'.rows cb.model.table, r cb.field ≠ cb.value db' r := by
  obtain ⟨db', h, h1, h2⟩ : ∃ db', (app b).flushWith falsyEntries 2 staleDb = (db', .returned) ∧
      (db'.dirty = [] ∧ ∃ r ∈ db'.rows label.model.table, r label.field ≠ label.value db' r) := flushWith_of (by cases b <;> decide +kernel)
  exact ⟨app b, decls, entryOrm, label, falsyEntries, staleDb, db', rfl, flushable_label b _ _, stale_unique b _, by unfold KeysOk; decide,
    by unfold StaleMarked; decide, fun _ _ _ => rfl, h, h1, h2⟩

/-- Two entries of the renamed blog, both marked; the comment belongs to the second. -/
def twoStale : Db :=
  ⟨fun t => if t = "blog" then [blrow 1 "Z"] else if t = "entry" then [erow 1 1 "A", erow 2 1 "A"]
    else if t = "comment" then [crow 1 2 "A"] else [], [⟨12, .int 1⟩, ⟨12, .int 2⟩], 0⟩

/-- Saving entry 1 raises an exception (say, in the model's own save()). -/
def badEntry : Hooks := ⟨fun _ _ _ => true, fun _ om r => om.model.ct == 12 && r om.model.pk == .int 1, fun _ _ _ => false⟩

/-- A receiver of `post_save` raises an exception for entry 1. -/
def lateEntry : Hooks := ⟨fun _ _ _ => true, fun _ _ _ => false, fun _ om r => om.model.ct == 12 && r om.model.pk == .int 1⟩

theorem two_unique (b : Backend) (arr : List Mark → List Mark) : KeysUnique (app b arr) twoStale := by
  unfold KeysUnique
  cases b <;> simp only [app] <;> decide

/-- C66 is violated: entry 1 cannot be saved, and entry 2, which can, stays out of date however often flush() is called. -/
theorem C66_violated (b : Backend) : ∃ (A : App) (D : List Denorm) (om : OrmModel) (cb : Callback) (H : Hooks) (db : Db), A.engine.backend = b ∧
    Flushable A D om cb db ∧ KeysUnique A db ∧ KeysOk cb db ∧ StaleMarked cb db ∧ (∀ x om r, H.truth x om r = true) ∧
    (∀ x om r, H.raises x om r = true → r om.model.pk = .int 1) ∧
    ∀ n k, ∃ r ∈ (A.callsWith H (n + 1) k db).rows cb.model.table, r cb.model.pk = .int 2 ∧
      r cb.field ≠ cb.value (A.callsWith H (n + 1) k db) r := by
  refine ⟨app b, decls, entryOrm, label, badEntry, twoStale, rfl, flushable_label b _ _, two_unique b _, by unfold KeysOk; decide,
    by unfold StaleMarked; decide, fun _ _ _ => rfl, ?_, fun n k => ?_⟩
  · intro x om r h
    simp only [badEntry, Bool.and_eq_true, beq_iff_eq] at h
    exact h.2
  · have hs : (app b).snapshot twoStale = ⟨12, .int 1⟩ :: [⟨12, .int 2⟩] := by cases b <;> decide
    obtain ⟨om, r, hc, hr⟩ : ∃ om r, (app b).contentObject twoStale ⟨12, .int 1⟩ = .ok (some (om, r)) ∧ badEntry.raises twoStale om r = true :=
      ⟨entryOrm, erow 1 1 "A", rfl, by decide⟩
    rw [C66_violated_stuck (A := app b) (H := badEntry) (by decide) hs hc rfl hr n k]
    exact ⟨erow 2 1 "A", by simp [label, entry, twoStale], by decide, by decide⟩

/-! ## The hypotheses are met -/

/-- `C65_truthy_partial`: comments are truthy, entries are not. Comment 1 is brought up to date (with its entry's label, which stays "A"). -/
example (b : Backend) : ∃ db', (app b).flushWith falsyEntries 2 { staleDb with
      rows := fun t => if t = "comment" then [crow 1 1 "?"] else staleDb.rows t, dirty := [⟨12, .int 1⟩, ⟨13, .int 1⟩] } = (db', .returned) ∧
    (db'.rows "comment").map (fun r => r "path") = [.text "A"] ∧ db'.dirty = [] ∧ ∀ r ∈ db'.rows "comment", r "path" = path.value db' r := by
  obtain ⟨db', h, h1⟩ : ∃ db', (app b).flushWith falsyEntries 2 { staleDb with
      rows := fun t => if t = "comment" then [crow 1 1 "?"] else staleDb.rows t, dirty := [⟨12, .int 1⟩, ⟨13, .int 1⟩] } = (db', .returned) ∧
      (db'.rows "comment").map (fun r => r "path") = [.text "A"] := flushWith_of (by cases b <;> decide +kernel)
  have hc := C65_truthy_partial (flushable_path b _ _) (by unfold KeysUnique; cases b <;> simp only [app] <;> decide) (by unfold KeysOk; decide)
    (by unfold StaleMarked; decide) (fun x om r hm => by simp only [falsyEntries, hm]; decide) h
  exact ⟨db', h, h1, hc.1, hc.2⟩

/-- `C66_nothing_lost_partial`: flush() ends with an exception, entry 1 is written, its marker still there, entry 2 untouched. -/
example (b : Backend) : ∃ x, (app b).flushWith lateEntry 3 twoStale = (x, .raised) ∧
    (x.rows "entry").map (fun r => r "label") = [.text "Z", .text "A"] ∧ StaleMarked label x ∧ ⟨12, .int 1⟩ ∈ x.dirty ∧ ⟨12, .int 2⟩ ∈ x.dirty := by
  obtain ⟨x, h, h1, h2⟩ : ∃ x, (app b).flushWith lateEntry 3 twoStale = (x, .raised) ∧
      ((x.rows "entry").map (fun r => r "label") = [.text "Z", .text "A"] ∧ ⟨12, .int 1⟩ ∈ x.dirty ∧ ⟨12, .int 2⟩ ∈ x.dirty) :=
    flushWith_of (by cases b <;> decide +kernel)
  exact ⟨x, h, h1, (C66_nothing_lost_partial (flushable_label b _ _) (two_unique b _) (by unfold KeysOk; decide)
    (by unfold StaleMarked; decide) (fun _ _ _ _ => rfl) h).1, h2⟩

/-- ... and a second call, with the receiver repaired, makes everything right. -/
example (b : Backend) : ∃ db', (app b).flush 3 ((app b).flushWith lateEntry 3 twoStale).1 = .ok (some db') ∧
    (db'.rows "entry").map (fun r => r "label") = [.text "Z", .text "Z"] ∧ (db'.rows "comment").map (fun r => r "path") = [.text "Z"] ∧
    ∀ r ∈ db'.rows "comment", r "path" = path.value db' r := by
  obtain ⟨db', h, h1, h2⟩ : ∃ db', (app b).flush 3 ((app b).flushWith lateEntry 3 twoStale).1 = .ok (some db') ∧
      ((db'.rows "entry").map (fun r => r "label") = [.text "Z", .text "Z"] ∧ (db'.rows "comment").map (fun r => r "path") = [.text "Z"]) :=
    flush_of (by cases b <;> decide +kernel)
  exact ⟨db', h, h1, h2, ((C66_nothing_lost_partial (flushable_path b _ _) (two_unique b _) (by unfold KeysOk; decide)
    (by unfold StaleMarked; decide) (fun _ _ _ _ => rfl) rfl).2 _ _ h).2⟩

/-- `C66_violated_removed_model`: content type 99 has no model any more. -/
example (b : Backend) : ∀ n, ((app b).flushWith ⟨fun _ _ _ => true, fun _ _ _ => false, fun _ _ _ => false⟩ (n + 1)
    { twoStale with dirty := [⟨12, .int 1⟩, ⟨99, .int 1⟩] }).2 = .raised :=
  C66_violated_removed_model (fun _ => .refl _) (m := ⟨99, .int 1⟩) (by simp) (by cases b <;> decide)

/-- `C65_plain`: the markers of `staleDb` are flushed as before. -/
example (b : Backend) : ∃ db', (app b).flushWith ⟨fun _ _ _ => true, fun _ _ _ => false, fun _ _ _ => false⟩ 2 staleDb = (db', .returned) := by
  obtain ⟨db', h, -⟩ : ∃ db', (app b).flush 2 staleDb = .ok (some db') ∧ True := flush_of (by cases b <;> decide +kernel)
  exact ⟨db', (C65_plain (fun _ _ _ => rfl) (fun _ _ _ => rfl) (fun _ _ _ => rfl) 2).2 h⟩

end Chain
end Denorm
