import Verif.Lemmas.Crew
import Verif.Props.Session
/-!
# Several flush() at the same time (C56)
-/
namespace Denorm

section
variable {A : App} {D : List Denorm} {om : OrmModel} {cb : Callback} {db : Db}

/-- C56 for fields that are computed from plain data (`Unchained`): flush() is called any number of times by any number of processes, each of them may
be killed at any moment, other sessions work meanwhile (and leave alone the instances just loaded by one of the calls): at every moment of every
schedule every out-of-date instance is marked. What is missing is shown below: fields computed from computed fields. -/
theorem C56_marked_partial (hU : Unchained A D om cb) (hu : KeysUnique A db) (hK : KeysOk cb db) (hS : StaleMarked cb db) {ts : List CrewTurn}
    (hd : Discreet A cb ts ([], db)) :
    ∀ r ∈ (A.crewTurns ts ([], db)).2.rows cb.model.table, r cb.field ≠ cb.value (A.crewTurns ts ([], db)).2 r →
      Marked cb.model (A.crewTurns ts ([], db)).2 r :=
  (sound_crewTurns hU ts (st := ([], db)) ⟨hu, hK, hS⟩ (fun _ h => by simp at h) hd).stale

theorem discreet_alone : ∀ (ts : List CrewTurn) (st : List Pc × Db), (∀ s, CrewTurn.other s ∉ ts) → Discreet A cb ts st
  | [], _, _ => trivial
  | .call :: ts, _, h => discreet_alone ts _ fun s hs => h s (List.mem_cons_of_mem _ hs)
  | .step _ :: ts, _, h => discreet_alone ts _ fun s hs => h s (List.mem_cons_of_mem _ hs)
  | .other s :: _, _, h => absurd (List.mem_cons_self ..) (h s)

/-- C56: and when there are no other sessions, and all calls have returned, no marker is left and nothing is out of date. -/
theorem C56_returned_partial (hU : Unchained A D om cb) (hu : KeysUnique A db) (hK : KeysOk cb db) (hS : StaleMarked cb db) {ts : List CrewTurn}
    (ho : ∀ s, CrewTurn.other s ∉ ts) (hc : (A.crewTurns ts ([], db)).1 ≠ []) (hall : ∀ pc ∈ (A.crewTurns ts ([], db)).1, pc.returned = true) :
    (A.crewTurns ts ([], db)).2.dirty = [] ∧
      ∀ r ∈ (A.crewTurns ts ([], db)).2.rows cb.model.table, r cb.field = cb.value (A.crewTurns ts ([], db)).2 r := by
  have hdirty := crew_done ts (st := ([], db)) ho (fun h => absurd rfl h) hc hall
  refine ⟨hdirty, fun r hr => Classical.byContradiction fun hne => ?_⟩
  have := C56_marked_partial hU hu hK hS (discreet_alone ts _ ho) r hr hne
  unfold Marked at this
  rw [hdirty] at this
  simp at this

end

/-! ## The hypotheses are met -/

namespace Chain
set_option maxRecDepth 100000

theorem unchained_label (b : Backend) : Unchained (app b) decls entryOrm label where
  installed := rfl
  declared := wd_label b
  noReentry := noReentry b
  found := by cases b <;> rfl
  model := rfl
  cols := by decide
  saved := List.mem_cons_of_mem _ (List.mem_cons_self ..)
  inputs := by cases b <;> simp only [app] <;> decide
  field := by decide
  keys := by cases b <;> simp only [app] <;> decide
  kept := by cases b <;> simp only [app] <;> decide
  pks := by cases b <;> simp only [app] <;> decide
  only := by
    intro om hom ht
    simp only [app, List.mem_cons, List.not_mem_nil, or_false] at hom
    rcases hom with rfl | rfl | rfl
    · exact absurd ht (by decide)
    · rfl
    · exact absurd ht (by decide)

/-- Two calls take turns; a third one starts later. -/
def threeCalls : List CrewTurn :=
  [.call, .call] ++ (List.replicate 9 [CrewTurn.step 0, .step 1]).flatten ++ [.call] ++ (List.replicate 20 [CrewTurn.step 2, .step 1, .step 0]).flatten

theorem threeCalls_alone (s : Stmt) : CrewTurn.other s ∉ threeCalls := by simp [threeCalls]

/-- C56 applies to that schedule: all three calls return, and the label, which was out of date, has been brought up to date. -/
example (b : Backend) : (∃ r ∈ busyDb.rows "entry", r "label" ≠ label.value busyDb r) ∧
    ((app b).crewTurns threeCalls ([], busyDb)).1.length = 3 ∧
    (∀ r ∈ ((app b).crewTurns threeCalls ([], busyDb)).2.rows label.model.table,
      r label.field = label.value ((app b).crewTurns threeCalls ([], busyDb)).2 r) :=
  ⟨by decide, by cases b <;> decide +kernel,
    (C56_returned_partial (unchained_label b) (busy_unique b) (by unfold KeysOk; decide) (by unfold StaleMarked; decide) threeCalls_alone
      (by cases b <;> decide +kernel) (by cases b <;> decide +kernel)).2⟩

theorem discreet_rename (b : Backend) {st : List Pc × Db} {id : Int} {title : String} {ts : List CrewTurn}
    (h : (match (app b).exec (rename id title) st.2 with
      | .ok db' => decide (((db'.rows "blog").map fun r => r "id") = (st.2.rows "blog").map fun r => r "id") &&
          st.1.all fun pc => match pc.busy with
            | some m => decide (m.ct ≠ 11) && decide (db'.dirty.count m = st.2.dirty.count m)
            | none => true
      | .error _ => true) = true) (hu : KeysUnique (app b) st.2)
    (hc : Discreet (app b) label ts ((app b).crewTurn (.other (rename id title)) st)) :
    Discreet (app b) label (.other (rename id title) :: ts) st := by
  refine ⟨legal_set (by decide) (by decide), fun db' he => ?_, hc⟩
  rw [he] at h
  simp only [Bool.and_eq_true, decide_eq_true_eq, List.all_eq_true] at h
  have he' : (app b).engine.exec (app b).fuel (rename id title) st.2 = .ok db' := by
    simp only [App.exec] at he
    cases h : (app b).engine.exec (app b).fuel (rename id title) st.2 with
    | error e => rw [h] at he; simp at he
    | ok x => rw [h] at he; simpa using he
  have hun : ∀ t, Untouched (app b).engine t := fun t tr htr u hu => by
    have := DbTrigger.mem_updates.2 hu
    simp [noUpdates b tr htr] at this
  have hrows : ∀ t, t ≠ "blog" → db'.rows t = st.2.rows t := fun t ht => exec_rows_other (hun t) (s := rename id title) (Ne.symm ht) he'
  refine ⟨?_, ?_⟩
  · intro om hom
    have hom' := hom
    simp only [app, List.mem_cons, List.not_mem_nil, or_false] at hom'
    have hk : (db'.rows om.model.table).map (fun r => r om.model.pk) = (st.2.rows om.model.table).map fun r => r om.model.pk := by
      rcases hom' with rfl | rfl | rfl
      · exact h.1
      · rw [hrows _ (by decide)]
      · rw [hrows _ (by decide)]
    refine ⟨by rw [hk]; exact (hu om hom).1, fun r hr e => ?_⟩
    have : Val.null ∈ (db'.rows om.model.table).map fun r => r om.model.pk := List.mem_map.2 ⟨r, hr, e⟩
    rw [hk] at this
    obtain ⟨r', h1, h2⟩ := List.mem_map.1 this
    exact (hu om hom).2 r' h1 h2
  · intro pc hpc m hm
    have h2 := h.2 pc hpc
    rw [hm] at h2
    simp only [Bool.and_eq_true, decide_eq_true_eq] at h2
    refine ⟨fun om hom hct r _ => ?_, h2.2⟩
    rw [hrows]
    simp only [app, List.mem_cons, List.not_mem_nil, or_false] at hom
    rcases hom with rfl | rfl | rfl
    · exact absurd hct.symm h2.1
    · decide
    · decide

/-- Two calls have both loaded entry 1; blog 2 is renamed. -/
def twoCalls : List CrewTurn := [.call, .call, .step 0, .step 1, .step 0, .step 1, .step 0, .step 1]

theorem twoCalls_discreet (b : Backend) : Discreet (app b) label (twoCalls ++ [.other (rename 2 "C")]) ([], busyDb) := by
  change Discreet (app b) label [.other (rename 2 "C")] ((app b).crewTurns twoCalls ([], busyDb))
  exact discreet_rename b (by cases b <;> decide +kernel) (by unfold KeysUnique; cases b <;> decide +kernel) trivial

/-- C56 applies: entry 1 is out of date and still marked, and so is entry 2 now. -/
example (b : Backend) : ((app b).crewTurns (twoCalls ++ [.other (rename 2 "C")]) ([], busyDb)).2.dirty.map Mark.oid = [.int 1, .int 2] ∧
    ∀ r ∈ ((app b).crewTurns (twoCalls ++ [.other (rename 2 "C")]) ([], busyDb)).2.rows label.model.table,
      r label.field ≠ label.value ((app b).crewTurns (twoCalls ++ [.other (rename 2 "C")]) ([], busyDb)).2 r →
      Marked label.model ((app b).crewTurns (twoCalls ++ [.other (rename 2 "C")]) ([], busyDb)).2 r :=
  ⟨by cases b <;> decide +kernel,
    C56_marked_partial (unchained_label b) (busy_unique b) (by unfold KeysOk; decide) (by unfold StaleMarked; decide) (twoCalls_discreet b)⟩

/-- A blog has been renamed and a comment has been edited: entry and comment are marked, the comment's marker is the first. -/
def bothDb : Db :=
  ⟨fun t => if t = "blog" then [blrow 1 "Z"] else if t = "entry" then [erow 1 1 "A"] else if t = "comment" then [crow 1 1 "?"] else [],
    [⟨13, .int 1⟩, ⟨12, .int 1⟩], 0⟩

/-- The first call has called the callback of the comment when the second one starts; that one does everything there is to do, then the first one goes
on. -/
def overtaken : List CrewTurn := [.call] ++ List.replicate 5 (.step 0) ++ [.call] ++ List.replicate 30 (.step 1) ++ List.replicate 20 (.step 0)

theorem overtaken_alone (s : Stmt) : CrewTurn.other s ∉ overtaken := by simp [overtaken]

end Chain

set_option maxRecDepth 100000 in
/-- **C56 is violated** on every backend for a field that is computed from a computed field: two processes call flush(), nobody else is at work, and
both calls return. The first one saves what it has computed from the old value of the other field over what the second one has computed from the new
value, and deletes the marker. The instance is out of date and not marked. A single flush() would have been correct (`Flushable`). -/
theorem C56_violated (b : Backend) : ∃ (A : App) (D : List Denorm) (om : OrmModel) (cb : Callback) (db : Db) (ts : List CrewTurn),
    A.engine.backend = b ∧ Flushable A D om cb db ∧ KeysUnique A db ∧ KeysOk cb db ∧ StaleMarked cb db ∧ (∀ s, CrewTurn.other s ∉ ts) ∧
    (A.crewTurns ts ([], db)).1.length = 2 ∧ (∀ pc ∈ (A.crewTurns ts ([], db)).1, pc.returned = true) ∧
    (A.crewTurns ts ([], db)).2.dirty = [] ∧
    ∃ r ∈ (A.crewTurns ts ([], db)).2.rows cb.model.table, r cb.field ≠ cb.value (A.crewTurns ts ([], db)).2 r :=
  ⟨Chain.app b, Chain.decls, Chain.commentOrm, Chain.path, Chain.bothDb, Chain.overtaken, rfl, Chain.flushable_path b _ _,
    by unfold KeysUnique; cases b <;> simp only [Chain.app] <;> decide, by unfold KeysOk; decide, by unfold StaleMarked; decide,
    Chain.overtaken_alone, by cases b <;> decide +kernel, by cases b <;> decide +kernel, by cases b <;> decide +kernel,
    by cases b <;> decide +kernel⟩

end Denorm
