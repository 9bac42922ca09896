import Verif.Lemmas.Unique
import Verif.Props.Crew
import Verif.Lemmas.Settle
/-!
# Fields with `unique=True` (C87)
-/
namespace Denorm

section
variable {A : App} {D : List Denorm} {om : OrmModel} {cb : Callback} {db db' : Db} {U : List (TableName × Col)}

/-- C87 for fields that are computed from plain data (`Unchained`), where the old and the new values of different instances are all different
(`Distinct`): the constraints do not get in the way. flush() returns exactly when it does without them, with the same database. Missing: values that
change hands (see below), and fields computed from computed fields. -/
theorem C87_returns_partial (hU : Unchained A D om cb) (hu : KeysUnique A db) (hp : ∀ p ∈ U, SafelyUnique A D db p) (n : Nat) :
    A.flushUnique U n db = (db', .returned) ↔ A.flush n db = .ok (some db') := by
  have h := flushUnique_eq hU hu hp n hu .start
  constructor
  · intro hr
    cases hf : A.flush n db with
    | error e => rw [hf, hr] at h; cases h
    | ok x =>
      cases x with
      | none => rw [hf, hr] at h; cases h
      | some db1 =>
        rw [hf, hr] at h
        have := h.1
        simp only [Prod.mk.injEq, and_true] at this
        rw [this]
  · intro hf
    rw [hf] at h
    exact h.1

/-- C87: flush() raises no IntegrityError, however many passes it makes. -/
theorem C87_no_error_partial (hU : Unchained A D om cb) (hu : KeysUnique A db) (hp : ∀ p ∈ U, SafelyUnique A D db p) (n : Nat) :
    (A.flushUnique U n db).2 ≠ .integrity := by
  have h := flushUnique_eq hU hu hp n hu .start
  cases hf : A.flush n db with
  | error e => rw [hf] at h; rw [h]; exact fun g => by cases g
  | ok x =>
    cases x with
    | none => rw [hf] at h; rw [h]; exact fun g => by cases g
    | some db1 => rw [hf] at h; rw [h.1]; exact fun g => by cases g

/-- C87: and when it returns, no marker is left, every instance holds what the callback returns, and no unique column holds a value twice. -/
theorem C87_right_partial (hU : Unchained A D om cb) (hF : Flushable A D om cb db) (hu : KeysUnique A db) (hK : KeysOk cb db) (hS : StaleMarked cb db)
    (hp : ∀ p ∈ U, SafelyUnique A D db p) {n : Nat} (h : A.flushUnique U n db = (db', .returned)) :
    db'.dirty = [] ∧ (∀ r ∈ db'.rows cb.model.table, r cb.field = cb.value db' r) ∧
      ∀ p ∈ U, ((db'.rows p.1).map fun r => r p.2).Pairwise fun x y => x ≠ .null → x ≠ y := by
  have hf := (C87_returns_partial hU hu hp n).1 h
  refine ⟨(C01_flush_partial hF hu hK hS hf).1, (C01_flush_partial hF hu hK hS hf).2, fun p hpU => ?_⟩
  have h2 := flushUnique_eq hU hu hp n hu .start
  rw [hf] at h2
  exact repeated_false.1 (h2.2.distinct hu (hp p hpU))

/-- **C87 is violated**, in every project and whatever the order of the markers, when the value of every marked instance is still held by another one:
for example if two instances have to exchange their values. The right values may all be different. flush() raises an error when it saves the first
instance, and changes nothing. -/
theorem C87_violated_taken (hU : Unchained A D om cb) (hu : KeysUnique A db) (hin : (cb.model.table, cb.field) ∈ U) (hp : ∀ l, (A.arrange l).Perm l)
    (hd : db.dirty ≠ []) (hm : ∀ m ∈ db.dirty, ∃ r ∈ db.rows cb.model.table, m = ⟨cb.model.ct, r cb.model.pk⟩ ∧ cb.Taken db r) (n : Nat) :
    (A.flushUnique U (n + 1) db).1 = db ∧
      ((A.flushUnique U (n + 1) db).2 = .integrity ∨ ∃ e, (A.flushUnique U (n + 1) db).2 = .raised e) := by
  have hmem : ∀ m ∈ A.snapshot db, m ∈ db.dirty := fun m h => (mem_snapshot hp).1 h
  have hne : A.snapshot db ≠ [] := by
    obtain ⟨m, ms, e⟩ := List.exists_cons_of_ne_nil hd
    intro h
    have : m ∈ A.snapshot db := (mem_snapshot hp).2 (by rw [e]; exact List.mem_cons_self ..)
    rw [h] at this
    exact absurd this (by simp)
  unfold App.flushUnique
  rw [if_neg hd]
  cases hs : A.snapshot db with
  | nil => exact absurd hs hne
  | cons m ms =>
    obtain ⟨r, hr, hmr, ht⟩ := hm m (hmem m (by rw [hs]; exact List.mem_cons_self ..))
    obtain ⟨o, ho, h2⟩ := taken_refused hU hu hin hr ht hmr
    simp only [App.flushListUnique, ho]
    exact ⟨trivial, h2⟩

/-- C87: and so do all later calls, until somebody interferes. -/
theorem C87_violated_forever (hU : Unchained A D om cb) (hu : KeysUnique A db) (hin : (cb.model.table, cb.field) ∈ U) (hp : ∀ l, (A.arrange l).Perm l)
    (hd : db.dirty ≠ []) (hm : ∀ m ∈ db.dirty, ∃ r ∈ db.rows cb.model.table, m = ⟨cb.model.ct, r cb.model.pk⟩ ∧ cb.Taken db r) (n k : Nat) :
    A.callsUnique U (n + 1) k db = db := by
  induction k with
  | zero => rfl
  | succ k ih => rw [App.callsUnique, (C87_violated_taken hU hu hin hp hd hm n).1, ih]

end

/-! ## The hypotheses are met -/

namespace Chain
set_option maxRecDepth 100000

/-- Three entries, in three blogs. The first blog has been renamed. -/
def slugDb : Db :=
  ⟨fun t => if t = "blog" then [blrow 1 "Z", blrow 2 "B", blrow 3 "C"] else if t = "entry" then [erow 1 1 "A", erow 2 2 "B", erow 3 3 "C"] else [], [⟨12, .int 1⟩], 0⟩

theorem slugs_safe (b : Backend) : ∀ p ∈ [("entry", "label"), ("blog", "title")], SafelyUnique (app b) decls slugDb p := by
  intro p hp
  simp only [List.mem_cons, List.not_mem_nil, or_false] at hp
  rcases hp with rfl | rfl
  · exact .inr ⟨entryOrm, label, rfl, unchained_label b, by decide⟩
  · exact .inl ⟨by cases b <;> simp only [app] <;> decide, by decide⟩

/-- C87 applies: the labels and the titles of the blogs are unique, the label of entry 1 is out of date, and flush() brings it up to date. -/
example (b : Backend) : (∃ r ∈ slugDb.rows "entry", r "label" ≠ label.value slugDb r) ∧
    ∃ db', (app b).flushUnique [("entry", "label"), ("blog", "title")] 2 slugDb = (db', .returned) ∧ (db'.rows "entry").map (fun r => r "label") = [.text "Z", .text "B", .text "C"] ∧
      ∀ p ∈ [("entry", "label"), ("blog", "title")], ((db'.rows p.1).map fun r => r p.2).Pairwise fun x y => x ≠ .null → x ≠ y := by
  obtain ⟨db', h, h1⟩ : ∃ db', (app b).flush 2 slugDb = .ok (some db') ∧ (db'.rows "entry").map (fun r => r "label") = [.text "Z", .text "B", .text "C"] :=
    flush_of (by cases b <;> decide +kernel)
  have hu : KeysUnique (app b) slugDb := by unfold KeysUnique; cases b <;> simp only [app] <;> decide
  have hr := (C87_returns_partial (unchained_label b) hu (slugs_safe b) 2).2 h
  exact ⟨by decide, db', hr, h1, (C87_right_partial (unchained_label b) (flushable_label b _ _) hu (by unfold KeysOk; decide)
    (by unfold StaleMarked; decide) (slugs_safe b) hr).2.2⟩

/-- Two entries of two blogs whose titles have been exchanged (in three steps, say); the triggers have marked both entries. -/
def swapDb : Db :=
  ⟨fun t => if t = "blog" then [blrow 1 "B", blrow 2 "A"] else if t = "entry" then [erow 1 1 "A", erow 2 2 "B"] else [], [⟨12, .int 2⟩, ⟨12, .int 1⟩], 0⟩

end Chain

set_option maxRecDepth 100000 in
/-- **C87 is violated** on every backend: the labels are all different, and so are the right ones; every instance that is out of date is marked; without
the constraint one call of flush() would bring them up to date. With it, every call raises an IntegrityError and leaves the database as it is. -/
theorem C87_violated_exchange (b : Backend) : ∃ (A : App) (D : List Denorm) (om : OrmModel) (cb : Callback) (db db' : Db), A.engine.backend = b ∧
    Unchained A D om cb ∧ Flushable A D om cb db ∧ KeysUnique A db ∧ KeysOk cb db ∧ StaleMarked cb db ∧
    ((db.rows cb.model.table).map fun r => r cb.field).Nodup ∧ ((db.rows cb.model.table).map fun r => cb.value db r).Nodup ∧
    A.flush 2 db = .ok (some db') ∧ (∀ r ∈ db'.rows cb.model.table, r cb.field = cb.value db' r) ∧
    (A.flushUnique [(cb.model.table, cb.field)] 2 db).2 = .integrity ∧
    ∀ n k, A.callsUnique [(cb.model.table, cb.field)] (n + 1) k db = db := by
  obtain ⟨db', h, _⟩ : ∃ db', (Chain.app b).flush 2 Chain.swapDb = .ok (some db') ∧ db'.dirty = [] := flush_of (by cases b <;> decide +kernel)
  have hu : KeysUnique (Chain.app b) Chain.swapDb := by unfold KeysUnique; cases b <;> simp only [Chain.app] <;> decide
  have hK : KeysOk Chain.label Chain.swapDb := by unfold KeysOk; decide
  have hS : StaleMarked Chain.label Chain.swapDb := by unfold StaleMarked; decide
  refine ⟨Chain.app b, Chain.decls, Chain.entryOrm, Chain.label, Chain.swapDb, db', rfl, Chain.unchained_label b, Chain.flushable_label b _ _, hu, hK, hS, by decide,
    by decide, h, (C01_flush_partial (Chain.flushable_label b _ _) hu hK hS h).2, by cases b <;> decide +kernel, fun n k => ?_⟩
  refine C87_violated_forever (Chain.unchained_label b) hu (List.mem_singleton.2 rfl) (fun l => List.Perm.refl _) (by decide) ?_ n k
  intro m hm
  simp only [Chain.swapDb, List.mem_cons, List.not_mem_nil, or_false] at hm
  rcases hm with rfl | rfl
  · exact ⟨Chain.erow 2 2 "B", List.mem_of_getElem? (i := 1) rfl, by decide, by decide, Chain.erow 1 1 "A", List.mem_of_getElem? (i := 0) rfl, by decide, by decide⟩
  · exact ⟨Chain.erow 1 1 "A", List.mem_of_getElem? (i := 0) rfl, by decide, by decide, Chain.erow 2 2 "B", List.mem_of_getElem? (i := 1) rfl, by decide, by decide⟩

end Denorm
