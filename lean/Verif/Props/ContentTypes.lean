import Verif.Code.ContentTypes
import Verif.Props.Deploy
import Verif.Lemmas.Returns
import Verif.Lemmas.SaveAgg
/-!
# C83: content types with new numbers
-/
namespace Denorm

section
variable {A : App} {D : List Denorm} {N : TableName → Nat}

/-- C83, the part that holds: after `denorm_drop`, `denorm_init` and `denorm_rebuild` it does not matter what the numbers were when the triggers were
installed before: the fields that one save makes right are right, and after every history of statements right or marked. Missing: without these commands
(`C83_violated_raises`, `C83_violated_refused`, `C83_violated_other`); CountField and SumField, which denorm_rebuild does not recompute. -/
theorem C83_installed_again_partial {b : Backend} {hash : String → String} {draws : Nat → String} {fails fails' : Nat → Bool} {rand : Nat → Int} {n : Nat}
    {p p' : Production} (hs : Administered b p.server) (h : p.deploy b hash draws fails fails' rand [] id (A.numbered N) (D.map (Denorm.numbered N)) n = some p')
    {om : OrmModel} {cb : Callback}
    (hF : Flushable { A.numbered N with engine := ⟨b, installedTriggers b (D.map (Denorm.numbered N)), rand⟩ } (D.map (Denorm.numbered N)) (om.numbered N)
      (cb.numbered N) p.db)
    (hu : KeysUnique { A.numbered N with engine := ⟨b, installedTriggers b (D.map (Denorm.numbered N)), rand⟩ } p.db) (hK : KeysOk (cb.numbered N) p.db) :
    p'.db.dirty = [] ∧ (∀ r ∈ p'.db.rows cb.model.table, r cb.field = (cb.numbered N).value p'.db r) ∧
    ∀ fuel ss, LegalRun ⟨b, installedTriggers b (D.map (Denorm.numbered N)), rand⟩ (cb.numbered N) fuel ss p'.db →
      ∀ r ∈ ((p'.engine b rand).run fuel ss p'.db).rows cb.model.table,
        r cb.field = (cb.numbered N).value ((p'.engine b rand).run fuel ss p'.db) r ∨
        Marked (cb.model.numbered N) ((p'.engine b rand).run fuel ss p'.db) r :=
  C71_values_partial (A := A.numbered N) (D := D.map (Denorm.numbered N)) (cb := cb.numbered N) (change := id) hs h hF hu hK

variable (hE : Installed A.engine D) (hthis : ∀ dn ∈ D, ∀ d ∈ dn.deps, d.this = dn.model)
  (hnew : ∀ om ∈ A.models, ∀ dn ∈ D, N om.model.table ≠ dn.model.ct)
include hE hthis hnew

/-- The markers that a statement adds have numbers that no model has any more. -/
theorem new_marks_unknown {s : Stmt} {db db' : Db} (hd : db.dirty = []) (h : A.exec s db = .ok db') :
    ∀ m ∈ db'.dirty, ∀ om ∈ (A.numbered N).models, om.model.ct ≠ m.ct := by
  intro m hm om hom e
  rcases exec_cts (C := fun ct => ∃ dn ∈ D, dn.model.ct = ct) (fun tr htr a ha ct hct => mark_cts hE hthis htr ha hct) (exec_ok h) m hm with h1 | ⟨dn, hdn, h1⟩
  · rw [hd] at h1; cases h1
  · obtain ⟨om0, h0, rfl⟩ := List.mem_map.1 hom
    exact hnew om0 h0 dn hdn (e.trans h1.symm)

/-- C83 is violated, in every project, where the models have got new numbers and markers are not checked (sqlite before Django 2.0): after the first
statement that marks anything, flush() raises, whatever happens. -/
theorem C83_violated_raises (hp : ∀ l, (A.arrange l).Perm l) {s : Stmt} {db db' : Db} (hd : db.dirty = []) (h : A.exec s db = .ok db')
    (hm : db'.dirty ≠ []) (n : Nat) : (A.numbered N).flush (n + 1) db' = .error .noModel := by
  have hu := new_marks_unknown hE hthis hnew hd h
  have hmem : ∀ m, m ∈ (A.numbered N).snapshot db' ↔ m ∈ db'.dirty := fun m => mem_snapshot (A := A.numbered N) hp
  rw [App.flush, if_neg hm]
  simp only [App.pass]
  cases hs : (A.numbered N).snapshot db' with
  | nil =>
    obtain ⟨m, hm'⟩ := List.exists_mem_of_ne_nil _ hm
    have := (hmem m).2 hm'
    rw [hs] at this; cases this
  | cons m ms =>
    have hmd := (hmem m).1 (by rw [hs]; exact List.mem_cons_self ..)
    have hf : (A.numbered N).models.find? (fun om => om.model.ct == m.ct) = none := by
      rw [List.find?_eq_none]
      intro om hom e
      exact hu m hmd om hom (by simpa using e)
    simp only [App.flushList, App.flushOne, App.saveObject, App.contentObject, hf]

omit hnew in
/-- C83 is violated, in every project, where the models have got new numbers, the old ones are gone and markers are checked: every statement that would
mark anything is refused. -/
theorem C83_violated_refused {cts : List Nat} (hc : ∀ dn ∈ D, dn.model.ct ∉ cts) {s : Stmt} {db db' : Db} (hd : db.dirty = []) (h : A.exec s db = .ok db')
    (hm : db'.dirty ≠ []) : A.execChecked cts s db = none := by
  simp only [App.execChecked, h]
  rw [if_neg]
  intro hall
  obtain ⟨m, hm'⟩ := List.exists_mem_of_ne_nil _ hm
  have h1 := List.all_eq_true.1 hall m hm'
  rcases exec_cts (C := fun ct => ∃ dn ∈ D, dn.model.ct = ct) (fun tr htr a ha ct hct => mark_cts hE hthis htr ha hct) (exec_ok h) m hm' with h2 | ⟨dn, hdn, h2⟩
  · rw [hd] at h2; cases h2
  · exact hc dn hdn (by rw [h2]; simpa using h1)
end

namespace Chain
set_option maxRecDepth 100000

/-- The content types were created in another order: Comment has the number that Entry had, and Entry that of Comment. -/
def swapped (t : TableName) : Nat := if t = "entry" then 13 else if t = "comment" then 12 else 11
/-- The content types were created once more, and got the next numbers. -/
def next (t : TableName) : Nat := if t = "entry" then 22 else if t = "comment" then 23 else 21

def retitle : Stmt := .update "blog" (fun _ => true) fun _ r => r.set "title" (.text "Z")

/-- `C83_violated_raises` and `C83_violated_refused`: the blog is renamed, as in `C83_violated_other`. -/
example (b : Backend) : (∃ db', (app b).exec retitle db = .ok db' ∧ (∀ n, ((app b).numbered next).flush (n + 1) db' = .error .noModel)) ∧
    (app b).execChecked [21, 22, 23] retitle db = none ∧ ((app b).execChecked [11, 12, 13] retitle db).isSome = true := by
  have hthis : ∀ dn ∈ decls, ∀ d ∈ dn.deps, d.this = dn.model := by decide
  obtain ⟨db', h, hm⟩ : ∃ db', (app b).exec retitle db = .ok db' ∧ db'.dirty ≠ [] := by
    have hx : (match (app b).exec retitle db with | .ok d => decide (d.dirty ≠ []) | _ => false) = true := by cases b <;> decide +kernel
    cases h : (app b).exec retitle db with
    | error e => rw [h] at hx; cases hx
    | ok d => rw [h] at hx; exact ⟨d, rfl, of_decide_eq_true hx⟩
  exact ⟨⟨db', h, C83_violated_raises (A := app b) (D := decls) rfl hthis (by cases b <;> decide) (fun _ => .refl _) rfl h hm⟩,
    C83_violated_refused (A := app b) (D := decls) rfl hthis (by decide) rfl h hm, by cases b <;> decide +kernel⟩

def declsN : List Denorm := decls.map (Denorm.numbered swapped)
def appN (b : Backend) : App := { (app b).numbered swapped with engine := ⟨b, installedTriggers b declsN, fun _ => 0⟩ }

theorem agreeN : ∀ b, AgreeOnWatch b declsN
  | .sqlite => by decide
  | .mysql => by decide
  | .postgresql => by decide

theorem noUpdatesN (b : Backend) : ∀ tr ∈ (appN b).engine.triggers, tr.updates = [] := by cases b <;> decide

theorem not_reachedN (b : Backend) {om : OrmModel} {t : TableName} {c : Col} : ¬ Reached (appN b).engine om t c := by
  intro h
  cases h with
  | direct htr _ _ _ hu => have := DbTrigger.mem_updates.2 hu; simp [noUpdatesN b _ htr] at this
  | next _ htr _ _ _ hu => have := DbTrigger.mem_updates.2 hu; simp [noUpdatesN b _ htr] at this

theorem wd_labelN (b : Backend) : WellDeclared b declsN (label.numbered swapped) where
  declared := by simp [declsN, decls, Callback.denorm, Denorm.numbered, Callback.numbered, label]
  agree := fun _ hg => covered_of_agree (agreeN b) (List.mem_flatMap.2 ⟨_, by decide, hg⟩)
  table := by decide
  own := by decide
  this := by decide
  watched := by decide
  keys := by decide
  links := by decide

theorem flushable_labelN (b : Backend) (db : Db) : Flushable (appN b) declsN (entryOrm.numbered swapped) (label.numbered swapped) db where
  installed := rfl
  declared := wd_labelN b
  noReentry := noReentry_of (fun _ => 0) (fun tr htr u hu => by simp [noUpdatesN b tr htr] at hu)
  found := by cases b <;> rfl
  model := rfl
  cols := by decide
  order := ⟨[⟨"blog_id", .plain⟩], [], rfl, by decide⟩
  own := fun _ _ h => not_reachedN b h
  deps := by
    intro d hd
    simp only [label, Callback.numbered, List.map_cons, List.map_nil, List.mem_singleton] at hd
    subst hd
    exact ⟨fun _ _ h => not_reachedN b h, .inl (by decide)⟩
  pks := by cases b <;> decide
  safe := ⟨by cases b <;> decide, fun _ _ _ _ h => not_reachedN b h⟩

/-- In production: the triggers of the old numbers. A blog has been renamed since. -/
def before (b : Backend) : Production := ⟨(installTriggers b md5 chars fine "default" decls audit).1, { staleDb with dirty := [] }⟩

/-- `C83_installed_again_partial`: the label is wrong, and not marked, before the commands, and right after them. -/
example (b : Backend) : (∃ p, (before b).deploy b md5 chars fine fine (fun _ => 0) [] id ((app b).numbered swapped) declsN 10 = some p ∧
      (p.db.rows "entry").map (fun r => r "label") = [.text "Z"]) ∧
    Administered b (before b).server ∧ Flushable (appN b) declsN (entryOrm.numbered swapped) (label.numbered swapped) (before b).db ∧
    KeysUnique (appN b) (before b).db ∧ KeysOk (label.numbered swapped) (before b).db ∧
    ∃ r ∈ (before b).db.rows "entry", r "label" ≠ (label.numbered swapped).value (before b).db r := by
  have had : Administered b (before b).server := .install md5 chars fine "default" decls (.start fun a t ht => by
    cases List.mem_singleton.1 ht
    rfl)
  refine ⟨?_, had, flushable_labelN b _, by unfold KeysUnique; cases b <;> decide, by unfold KeysOk; cases b <;> decide, by cases b <;> decide⟩
  obtain ⟨db', h3, hP⟩ : ∃ db', (appN b).rebuildall declsN none none 10 (before b).db = .ok (some db') ∧ (db'.rows "entry").map (fun r => r "label") = [.text "Z"] :=
    flush_of (by cases b <;> decide +kernel)
  obtain ⟨p, hp, rfl⟩ := deploy_succeeds (p := before b) (A := (app b).numbered swapped) (D := declsN) (rand := fun _ => 0) (n := 10) (hash := md5)
    (draws := chars) (fails := fine) (fails' := fine) (tables := []) (change := id) had (by cases b <;> decide +kernel) (by cases b <;> decide +kernel) h3
  exact ⟨p, hp, hP⟩

end Chain

/-- C83 is violated where two models have exchanged their numbers: a related row changes, the marker is taken for one of an instance of the other model, which is
saved; flush() returns, no marker is left, and the field is out of date. -/
theorem C83_violated_other (b : Backend) : ∃ (A : App) (D : List Denorm) (N : TableName → Nat) (cb : Callback) (s : Stmt) (db db1 db2 : Db),
    A.engine.backend = b ∧ Installed A.engine D ∧ cb.denorm ∈ D ∧ (∀ om ∈ A.models, ∃ om' ∈ A.models, N om.model.table = om'.model.ct) ∧
    db.dirty = [] ∧ (∀ r ∈ db.rows cb.model.table, r cb.field = cb.value db r) ∧ A.exec s db = .ok db1 ∧
    (A.numbered N).flush 2 db1 = .ok (some db2) ∧ db2.dirty = [] ∧ ∃ r ∈ db2.rows cb.model.table, r cb.field ≠ cb.value db2 r := by
  have hx : (match (Chain.app b).exec Chain.retitle Chain.db with
      | .ok d1 => (match ((Chain.app b).numbered Chain.swapped).flush 2 d1 with
        | .ok (some d2) => decide (d2.dirty = [] ∧ ∃ r ∈ d2.rows "entry", r "label" ≠ Chain.label.value d2 r)
        | _ => false)
      | _ => false) = true := by cases b <;> decide +kernel
  cases h1 : (Chain.app b).exec Chain.retitle Chain.db with
  | error e => rw [h1] at hx; cases hx
  | ok d1 =>
    rw [h1] at hx
    simp only at hx
    cases h2 : ((Chain.app b).numbered Chain.swapped).flush 2 d1 with
    | error e => rw [h2] at hx; cases hx
    | ok o =>
      cases o with
      | none => rw [h2] at hx; cases hx
      | some d2 =>
        rw [h2] at hx
        obtain ⟨h3, h4⟩ := of_decide_eq_true hx
        exact ⟨Chain.app b, Chain.decls, Chain.swapped, Chain.label, Chain.retitle, Chain.db, d1, d2, rfl, rfl, by simp [Chain.decls],
          by cases b <;> decide, rfl, by decide, h1, h2, h3, h4⟩

end Denorm
