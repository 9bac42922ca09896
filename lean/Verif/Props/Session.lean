import Verif.Lemmas.Session
import Verif.Lemmas.M2M
import Verif.Props.Flush
import Verif.Props.FlushViolations
/-!
# Other sessions while flush() runs (C21)
-/
namespace Denorm

/-! ## Step by step is what flush() does -/

section
variable {A : App}

theorem turns_append : ∀ (ts ts' : List Turn) (st : Pc × Db), A.turns (ts ++ ts') st = A.turns ts' (A.turns ts st)
  | [], _, _ => rfl
  | _ :: ts, ts', _ => turns_append ts ts' _

theorem alone_add (j k : Nat) (st : Pc × Db) : A.alone (j + k) st = A.alone k (A.alone j st) := by
  unfold App.alone
  rw [← List.replicate_append_replicate, turns_append]

theorem alone_done : ∀ (k : Nat) (db : Db), A.alone k (.done, db) = (.done, db)
  | 0, _ => rfl
  | k + 1, db => alone_done k db

theorem alone_failed (e : OrmErr) : ∀ (k : Nat) (db : Db), A.alone k (.failed e, db) = (.failed e, db)
  | 0, _ => rfl
  | k + 1, db => alone_failed e k db

theorem alone_saving (m : Mark) (om : OrmModel) (ms : List Mark) (db : Db) : ∀ (fs : List SaveField) (mem : Row),
    (∀ mem', preSaveAll A om.model db false fs mem = .ok mem' → ∃ k, A.alone k (.saving m om mem fs ms, db) = (.saving m om mem' [] ms, db)) ∧
    ∀ e, preSaveAll A om.model db false fs mem = .error e → ∃ k, A.alone k (.saving m om mem fs ms, db) = (.failed e, db)
  | [], mem => ⟨fun mem' h => ⟨0, by simp only [preSaveAll, Except.ok.injEq] at h; subst h; rfl⟩, fun e h => by simp [preSaveAll] at h⟩
  | f :: fs, mem => by
    simp only [preSaveAll]
    cases hv : f.preSave A om.model db false mem with
    | error e =>
      refine ⟨fun mem' h => by simp at h, fun e' h => ⟨1, ?_⟩⟩
      simp only [Except.error.injEq] at h
      subst h
      simp [App.alone, App.turns, App.turn, App.flushStep, hv]
    | ok v =>
      have hstep : A.alone 1 (.saving m om mem (f :: fs) ms, db) = (.saving m om (mem.set f.col v) fs ms, db) := by
        simp [App.alone, App.turns, App.turn, App.flushStep, hv]
      obtain ⟨h1, h2⟩ := alone_saving m om ms db fs (mem.set f.col v)
      exact ⟨fun mem' h => (h1 mem' h).imp' (1 + ·) fun k hk => by rw [alone_add, hstep, hk],
        fun e h => (h2 e h).imp' (1 + ·) fun k hk => by rw [alone_add, hstep, hk]⟩

theorem alone_inserting (m : Mark) (om : OrmModel) (ms : List Mark) (db : Db) : ∀ (fs : List SaveField) (mem : Row),
    (∀ mem', preSaveAll A om.model db true fs mem = .ok mem' → ∃ k, A.alone k (.inserting m om mem fs ms, db) = (.inserting m om mem' [] ms, db)) ∧
    ∀ e, preSaveAll A om.model db true fs mem = .error e → ∃ k, A.alone k (.inserting m om mem fs ms, db) = (.failed e, db)
  | [], mem => ⟨fun mem' h => ⟨0, by simp only [preSaveAll, Except.ok.injEq] at h; subst h; rfl⟩, fun e h => by simp [preSaveAll] at h⟩
  | f :: fs, mem => by
    simp only [preSaveAll]
    cases hv : f.preSave A om.model db true mem with
    | error e =>
      refine ⟨fun mem' h => by simp at h, fun e' h => ⟨1, ?_⟩⟩
      simp only [Except.error.injEq] at h
      subst h
      simp [App.alone, App.turns, App.turn, App.flushStep, hv]
    | ok v =>
      have hstep : A.alone 1 (.inserting m om mem (f :: fs) ms, db) = (.inserting m om (mem.set f.col v) fs ms, db) := by
        simp [App.alone, App.turns, App.turn, App.flushStep, hv]
      obtain ⟨h1, h2⟩ := alone_inserting m om ms db fs (mem.set f.col v)
      exact ⟨fun mem' h => (h1 mem' h).imp' (1 + ·) fun k hk => by rw [alone_add, hstep, hk],
        fun e h => (h2 e h).imp' (1 + ·) fun k hk => by rw [alone_add, hstep, hk]⟩

/-- The models' primary key is not among the columns that save() writes. -/
def PksKept (A : App) : Prop := ∀ om ∈ A.models, om.model.pk ∉ om.cols

theorem alone_flushOne (hA : PksKept A) (m : Mark) (ms : List Mark) (db : Db) :
    (∀ db', A.flushOne m db = .ok db' → ∃ k, A.alone k (.loop (m :: ms), db) = (.loop ms, db')) ∧
    ∀ e, A.flushOne m db = .error e → ∃ k, A.alone k (.loop (m :: ms), db) = (.failed e, db) := by
  simp only [App.flushOne, App.saveObject]
  have hone : ∀ st : Pc × Db, A.alone 1 st = A.flushStep st.1 st.2 := fun _ => rfl
  have hstep := hone (.loop (m :: ms), db)
  simp only [App.flushStep] at hstep
  have hdel : ∀ db', A.alone 1 (.deleting m ms, db') = (.loop ms, db'.dropMarks m) := fun _ => rfl
  cases hc : A.contentObject db m with
  | error e =>
    rw [hc] at hstep
    refine ⟨fun db' h => by simp at h, fun e' h => ⟨1, ?_⟩⟩
    simp only [Except.error.injEq] at h
    rw [hstep, h]
  | ok o =>
    cases o with
    | none =>
      rw [hc] at hstep
      refine ⟨fun db' h => ⟨1 + 1, ?_⟩, fun e' h => by simp at h⟩
      simp only [Except.ok.injEq] at h
      rw [alone_add, hstep, ← h]
      exact hdel db
    | some p =>
      obtain ⟨om, r⟩ := p
      rw [hc] at hstep
      simp only at hstep ⊢
      have hpk : om.model.pk ∉ om.cols := by
        simp only [App.contentObject] at hc
        cases hf : A.models.find? (fun o => o.model.ct == m.ct) with
        | none => rw [hf] at hc; simp at hc
        | some om' =>
          rw [hf] at hc
          simp only at hc
          cases hr : (db.rows om'.model.table).find? (isRowOf om'.model m.oid) with
          | none => rw [hr] at hc; simp at hc
          | some r' =>
            rw [hr] at hc
            simp only [Except.ok.injEq, Option.some.injEq, Prod.mk.injEq] at hc
            exact hc.1 ▸ hA om' (List.mem_of_find?_eq_some hf)
      simp only [App.save]
      obtain ⟨p1, p2⟩ := alone_saving (A := A) m om ms db om.saved r
      cases hp : preSaveAll A om.model db false om.saved r with
      | error e =>
        obtain ⟨k, hk⟩ := p2 e hp
        refine ⟨fun db' h => by simp at h, fun e' h => ⟨1 + k, ?_⟩⟩
        simp only [Except.error.injEq] at h
        rw [alone_add, hstep, hk, h]
      | ok mem =>
        obtain ⟨k, hk⟩ := p1 mem hp
        have hkey : mem om.model.pk = r om.model.pk :=
          preSaveAll_other hp _ fun f hf e => hpk (List.mem_map.2 ⟨f, hf, e⟩)
        have h1 : A.alone (1 + k) (.loop (m :: ms), db) = (.saving m om mem [] ms, db) := by rw [alone_add, hstep, hk]
        have hstep2 := hone (.saving m om mem [] ms, db)
        simp only [App.flushStep, hkey] at hstep2
        by_cases hany : (db.rows om.model.table).any (isRowOf om.model (r om.model.pk)) = true
        · rw [if_pos hany] at hstep2
          simp only [if_pos hany]
          cases he : A.exec (saveUpdate om mem) db with
          | error e =>
            rw [he] at hstep2
            refine ⟨fun db' h => by simp at h, fun e' h => ⟨1 + k + 1, ?_⟩⟩
            simp only [Except.error.injEq] at h
            rw [alone_add, h1, hstep2, h]
          | ok db1 =>
            rw [he] at hstep2
            refine ⟨fun db' h => ⟨1 + k + 1 + 1, ?_⟩, fun e' h => by simp at h⟩
            simp only [Except.ok.injEq] at h
            rw [alone_add, alone_add, h1, hstep2, ← h]
            exact hdel db1
        · rw [if_neg hany] at hstep2
          simp only [if_neg hany]
          obtain ⟨q1, q2⟩ := alone_inserting (A := A) m om ms db om.saved mem
          cases hq : preSaveAll A om.model db true om.saved mem with
          | error e =>
            obtain ⟨k2, hk2⟩ := q2 e hq
            refine ⟨fun db' h => by simp at h, fun e' h => ⟨1 + k + 1 + k2, ?_⟩⟩
            simp only [Except.error.injEq] at h
            rw [alone_add, alone_add, h1, hstep2, hk2, h]
          | ok mem2 =>
            obtain ⟨k2, hk2⟩ := q1 mem2 hq
            have hstep3 := hone (.inserting m om mem2 [] ms, db)
            simp only [App.flushStep] at hstep3
            have h2 : A.alone (1 + k + 1 + k2) (.loop (m :: ms), db) = (.inserting m om mem2 [] ms, db) := by
              rw [alone_add, alone_add, h1, hstep2, hk2]
            simp only
            cases he : A.exec (.insert om.model.table [mem2]) db with
            | error e =>
              rw [he] at hstep3
              refine ⟨fun db' h => by simp at h, fun e' h => ⟨1 + k + 1 + k2 + 1, ?_⟩⟩
              simp only [Except.error.injEq] at h
              rw [alone_add, h2, hstep3, h]
            | ok db1 =>
              rw [he] at hstep3
              refine ⟨fun db' h => ⟨1 + k + 1 + k2 + 1 + 1, ?_⟩, fun e' h => by simp at h⟩
              simp only [Except.ok.injEq] at h
              rw [alone_add, alone_add, h2, hstep3, ← h]
              exact hdel db1

theorem alone_flushList (hA : PksKept A) : ∀ (ms : List Mark) (db : Db),
    (∀ db', A.flushList ms db = .ok db' → ∃ k, A.alone k (.loop ms, db) = (.check, db')) ∧
    ∀ e, A.flushList ms db = .error e → ∃ k db', A.alone k (.loop ms, db) = (.failed e, db')
  | [], db => by
    refine ⟨fun db' h => ⟨1, ?_⟩, fun e h => by simp [App.flushList] at h⟩
    simp only [App.flushList, Except.ok.injEq] at h
    rw [← h]; rfl
  | m :: ms, db => by
    simp only [App.flushList]
    obtain ⟨h1, h2⟩ := alone_flushOne hA m ms db
    cases hs : A.flushOne m db with
    | error e =>
      obtain ⟨k, hk⟩ := h2 e hs
      refine ⟨fun db' h => by simp at h, fun e' h => ⟨k, db, ?_⟩⟩
      simp only [Except.error.injEq] at h
      rw [hk, h]
    | ok db1 =>
      obtain ⟨k, hk⟩ := h1 db1 hs
      obtain ⟨h3, h4⟩ := alone_flushList hA ms db1
      refine ⟨fun db' h => (h3 db' h).imp' (k + ·) fun k2 hk2 => by rw [alone_add, hk, hk2], fun e h => ?_⟩
      obtain ⟨k2, db', hk2⟩ := h4 e h
      exact ⟨k + k2, db', by rw [alone_add, hk, hk2]⟩

theorem alone_pass (hA : PksKept A) {db : Db} (hd : db.dirty ≠ []) :
    (∀ db', A.pass db = .ok db' → ∃ k, A.alone (k + 1) (.check, db) = (.check, db')) ∧
    ∀ e, A.pass db = .error e → ∃ k db', A.alone (k + 1) (.check, db) = (.failed e, db') := by
  obtain ⟨h1, h2⟩ := alone_flushList hA (A.snapshot db) db
  have h0 : A.alone 2 (.check, db) = (.loop (A.snapshot db), db) := by
    simp [App.alone, App.turns, App.turn, App.flushStep, hd, List.replicate]
  constructor
  · intro db' h
    obtain ⟨k, hk⟩ := h1 db' h
    exact ⟨1 + k, by rw [show 1 + k + 1 = 2 + k by omega, alone_add, h0, hk]⟩
  · intro e h
    obtain ⟨k, db', hk⟩ := h2 e h
    exact ⟨1 + k, db', by rw [show 1 + k + 1 = 2 + k by omega, alone_add, h0, hk]⟩

/-- Without other sessions the steps are those of flush(): they come to an end exactly when flush() returns, and then with the same
database. -/
theorem alone_is_flush (hA : PksKept A) (db db' : Db) :
    (∃ k, A.alone k (.check, db) = (.done, db')) ↔ ∃ n, A.flush n db = .ok (some db') := by
  constructor
  · rintro ⟨k, hk⟩
    induction k using Nat.strongRecOn generalizing db with
    | ind k ih =>
      by_cases hd : db.dirty = []
      · refine ⟨0, ?_⟩
        cases k with
        | zero => simp [App.alone, App.turns] at hk
        | succ k =>
          have h1 : A.alone 1 (.check, db) = (.done, db) := by simp [App.alone, App.turns, App.turn, App.flushStep, hd]
          rw [show k + 1 = 1 + k by omega, alone_add, h1, alone_done] at hk
          simp only [Prod.mk.injEq, true_and] at hk
          rw [← hk]; simp [App.flush, hd]
      · obtain ⟨h1, h2⟩ := alone_pass hA hd
        cases hp : A.pass db with
        | ok db1 =>
          obtain ⟨j, hj⟩ := h1 db1 hp
          by_cases hjk : j + 1 ≤ k
          · obtain ⟨i, rfl⟩ : ∃ i, k = j + 1 + i := ⟨k - (j + 1), by omega⟩
            rw [alone_add, hj] at hk
            obtain ⟨n, hn⟩ := ih i (by omega) db1 hk
            refine ⟨n + 1, ?_⟩
            unfold App.flush
            simp only [hd, if_false, hp]
            exact hn
          · obtain ⟨i, hi⟩ : ∃ i, j + 1 = k + i := ⟨j + 1 - k, by omega⟩
            rw [hi, alone_add, hk, alone_done] at hj
            simp at hj
        | error e =>
          obtain ⟨j, db1, hj⟩ := h2 e hp
          rcases Nat.le_total (j + 1) k with hjk | hjk
          · obtain ⟨i, rfl⟩ : ∃ i, k = j + 1 + i := ⟨k - (j + 1), by omega⟩
            rw [alone_add, hj, alone_failed] at hk
            simp at hk
          · obtain ⟨i, hi⟩ : ∃ i, j + 1 = k + i := ⟨j + 1 - k, by omega⟩
            rw [hi, alone_add, hk, alone_done] at hj
            simp at hj
  · rintro ⟨n, hn⟩
    induction n generalizing db with
    | zero =>
      unfold App.flush at hn
      split at hn
      · rename_i hd
        simp only [Except.ok.injEq, Option.some.injEq] at hn
        subst hn
        exact ⟨1, by simp [App.alone, App.turns, App.turn, App.flushStep, hd]⟩
      · simp at hn
    | succ n ih =>
      unfold App.flush at hn
      split at hn
      · rename_i hd
        simp only [Except.ok.injEq, Option.some.injEq] at hn
        subst hn
        exact ⟨1, by simp [App.alone, App.turns, App.turn, App.flushStep, hd]⟩
      · rename_i hd
        simp only at hn
        cases hp : A.pass db with
        | error e => rw [hp] at hn; simp at hn
        | ok db1 =>
          rw [hp] at hn
          obtain ⟨j, hj⟩ := (alone_pass hA hd).1 db1 hp
          obtain ⟨k, hk⟩ := ih db1 hn
          exact ⟨j + 1 + k, by rw [alone_add, hj, hk]⟩

end

/-! ## C21 -/

section
variable {A : App} {D : List Denorm} {om : OrmModel} {cb : Callback} {db : Db}

theorem good_turns (hP : cb.KeysPlain om) : ∀ (ts : List Turn) {st : Pc × Db}, Good A D om cb st.2 → PcOk A om cb st.1 st.2 →
    Considerate A D om cb ts st → Good A D om cb (A.turns ts st).2
  | [], _, hG, _, _ => hG
  | .flush :: ts, st, hG, hp, hc => by
    obtain ⟨h1, h2⟩ := good_flushStep hG hp
    exact good_turns hP ts (st := A.turn .flush st) h1 h2 hc
  | .other s :: ts, st, hG, hp, hc => by
    obtain ⟨hL, ho, hc⟩ := hc
    have hF := hG.flushable
    have h : Good A D om cb (A.turn (.other s) st).2 ∧ PcOk A om cb (A.turn (.other s) st).1 (A.turn (.other s) st).2 := by
      simp only [App.turn]
      cases he : A.exec s st.2 with
      | error e => exact ⟨hG, hp⟩
      | ok db' =>
        obtain ⟨h1, h2, h3⟩ := ho db' he
        have he' : A.engine.exec A.fuel s st.2 = .ok db' := by
          simp only [App.exec] at he
          cases h : A.engine.exec A.fuel s st.2 with
          | error e => rw [h] at he; simp at he
          | ok x => rw [h] at he; simpa using he
        have hT := staleMarked_exec hF.installed hF.declared hF.noReentry he' hL hG.keysOk hG.stale
        exact ⟨⟨h2, h1, hT.1, hT.2⟩, pcOk_other hP hG he hL h3 hp⟩
    exact good_turns hP ts h.1 h.2 hc

/-- C21, as long as the other sessions leave the instance alone that flush() has loaded and not yet finished (`Considerate`): at every
moment of every schedule every out-of-date instance is marked. What is missing is shown below: with a change at the wrong moment the
property fails. -/
theorem C21_considerate_partial (hF : Flushable A D om cb db) (hu : KeysUnique A db) (hK : KeysOk cb db) (hS : StaleMarked cb db)
    (hP : cb.KeysPlain om) {ts : List Turn} (hc : Considerate A D om cb ts (.check, db)) :
    ∀ r ∈ (A.turns ts (.check, db)).2.rows cb.model.table, r cb.field ≠ cb.value (A.turns ts (.check, db)).2 r →
      Marked cb.model (A.turns ts (.check, db)).2 r :=
  (good_turns hP ts (st := (.check, db)) ⟨hF, hu, hK, hS⟩ trivial hc).stale

/-- C21, and so the next flush() after that leaves nothing out of date. -/
theorem C21_next_flush_partial (hF : Flushable A D om cb db) (hu : KeysUnique A db) (hK : KeysOk cb db) (hS : StaleMarked cb db)
    (hP : cb.KeysPlain om) {ts : List Turn} (hc : Considerate A D om cb ts (.check, db)) {n : Nat} {db' : Db}
    (h : A.flush n (A.turns ts (.check, db)).2 = .ok (some db')) :
    db'.dirty = [] ∧ ∀ r ∈ db'.rows cb.model.table, r cb.field = cb.value db' r := by
  have hG := good_turns hP ts (st := (.check, db)) ⟨hF, hu, hK, hS⟩ trivial hc
  exact C01_flush_partial hG.flushable hG.keys hG.keysOk hG.stale h

end

/-! ## The hypotheses are met -/

namespace Chain
set_option maxRecDepth 100000

/-- Two blogs, the first one renamed. -/
def busyDb : Db :=
  ⟨fun t => if t = "blog" then [blrow 1 "Z", blrow 2 "B"] else if t = "entry" then [erow 1 1 "A", erow 2 2 "B"]
    else if t = "comment" then [crow 1 1 "A"] else [], [⟨12, .int 1⟩], 0⟩

def rename (id : Int) (title : String) : Stmt :=
  .update "blog" (fun r => decide (r "id" = .int id)) fun _ r => r.set "title" (.text title)

/-- While flush() is saving entry 1, and once more before it deletes its marker, another session renames blog 2; when flush() has finished
with entry 1, blog 1 is renamed again. -/
def meanwhile : List Turn :=
  [.flush, .flush, .flush, .other (rename 2 "C"), .flush, .flush, .flush, .other (rename 2 "D"), .flush, .other (rename 1 "Y")] ++
    List.replicate 60 .flush

theorem considerate_rename (b : Backend) {st : Pc × Db} {id : Int} {title : String} {ts : List Turn}
    (h : (match (app b).exec (rename id title) st.2 with
      | .ok db' => decide (((db'.rows "blog").map fun r => r "id") = (st.2.rows "blog").map fun r => r "id") &&
          (match st.1.busy with
            | some m => decide (m.ct ≠ 11) && decide (db'.dirty.count m = st.2.dirty.count m)
            | none => true)
      | .error _ => true) = true) (hu : KeysUnique (app b) st.2)
    (hc : Considerate (app b) decls entryOrm label ts ((app b).turn (.other (rename id title)) st)) :
    Considerate (app b) decls entryOrm label (.other (rename id title) :: ts) st := by
  refine ⟨legal_set (by decide) (by decide), fun db' he => ?_, hc⟩
  rw [he] at h
  simp only [Bool.and_eq_true, decide_eq_true_eq] at h
  have he' : (app b).engine.exec (app b).fuel (rename id title) st.2 = .ok db' := by
    simp only [App.exec] at he
    cases h : (app b).engine.exec (app b).fuel (rename id title) st.2 with
    | error e => rw [h] at he; simp at he
    | ok x => rw [h] at he; simpa using he
  have hun : ∀ t, Untouched (app b).engine t := fun t tr htr u hu => by
    have := DbTrigger.mem_updates.2 hu
    simp [noUpdates b tr htr] at this
  have hrows : ∀ t, t ≠ "blog" → db'.rows t = st.2.rows t := fun t ht => exec_rows_other (hun t) (s := rename id title) (Ne.symm ht) he'
  refine ⟨?_, flushable_label b _ _, ?_⟩
  · intro om hom
    have hom' := hom
    simp only [app, List.mem_cons, List.not_mem_nil, or_false] at hom'
    have hk : (db'.rows om.model.table).map (fun r => r om.model.pk) = (st.2.rows om.model.table).map fun r => r om.model.pk := by
      rcases hom' with rfl | rfl | rfl
      · exact h.1
      · rw [hrows _ (by decide)]
      · rw [hrows _ (by decide)]
    refine ⟨by rw [hk]; exact (hu om hom).1, fun r hr e => ?_⟩
    have : Val.null ∈ (db'.rows om.model.table).map fun r => r om.model.pk := List.mem_map.2 ⟨r, hr, e⟩
    rw [hk] at this
    obtain ⟨r', h1, h2⟩ := List.mem_map.1 this
    exact (hu om hom).2 r' h1 h2
  · intro m hm
    rw [hm] at h
    simp only [Bool.and_eq_true, decide_eq_true_eq] at h
    refine ⟨fun om hom hct r _ => ?_, h.2.2⟩
    rw [hrows]
    simp only [app, List.mem_cons, List.not_mem_nil, or_false] at hom
    rcases hom with rfl | rfl | rfl
    · exact absurd hct.symm h.2.1
    · decide
    · decide

theorem considerate_flush {A : App} {D : List Denorm} {om : OrmModel} {cb : Callback} : ∀ (k : Nat) (st : Pc × Db),
    Considerate A D om cb (List.replicate k .flush) st
  | 0, _ => trivial
  | k + 1, _ => considerate_flush k _

theorem busy_unique (b : Backend) : KeysUnique (app b) busyDb := by
  unfold KeysUnique
  cases b <;> simp only [app] <;> decide

theorem considerate_meanwhile (b : Backend) : Considerate (app b) decls entryOrm label meanwhile (.check, busyDb) := by
  change Considerate (app b) decls entryOrm label (.other (rename 2 "C") :: _) (((app b).alone 3 (.check, busyDb)))
  refine considerate_rename b (by cases b <;> decide +kernel) (by unfold KeysUnique; cases b <;> decide +kernel) ?_
  change Considerate (app b) decls entryOrm label (.other (rename 2 "D") :: _)
    ((app b).alone 3 ((app b).turn (.other (rename 2 "C")) ((app b).alone 3 (.check, busyDb))))
  refine considerate_rename b (by cases b <;> decide +kernel) (by unfold KeysUnique; cases b <;> decide +kernel) ?_
  change Considerate (app b) decls entryOrm label (.other (rename 1 "Y") :: _)
    ((app b).alone 1 ((app b).turn (.other (rename 2 "D"))
      ((app b).alone 3 ((app b).turn (.other (rename 2 "C")) ((app b).alone 3 (.check, busyDb))))))
  refine considerate_rename b (by cases b <;> decide +kernel) (by unfold KeysUnique; cases b <;> decide +kernel) ?_
  exact considerate_flush 60 _

/-- C21 applies to that schedule; flush() returns in it, and everything is up to date. -/
example (b : Backend) : Considerate (app b) decls entryOrm label meanwhile (.check, busyDb) ∧ label.KeysPlain entryOrm ∧
    KeysUnique (app b) busyDb ∧ KeysOk label busyDb ∧ StaleMarked label busyDb ∧ (∃ r ∈ busyDb.rows "entry", ¬ label.Fresh busyDb r) ∧
    ((app b).turns meanwhile (.check, busyDb)).1.returned = true ∧
    (((app b).turns meanwhile (.check, busyDb)).2.rows "entry").map (fun r => r "label") = [.text "Y", .text "D"] :=
  ⟨considerate_meanwhile b, by unfold Callback.KeysPlain; decide, busy_unique b, by unfold KeysOk; decide, by unfold StaleMarked; decide,
    by decide, by cases b <;> decide +kernel, by cases b <;> decide +kernel⟩

example (b : Backend) : PksKept (app b) := by unfold PksKept; cases b <;> decide

end Chain

/-! ## A change at the wrong moment -/

/-- **C21 is violated**: flush() has called the callback of an entry; before it deletes the entry's marker, another session renames the
blog. That marks the entry, but the new marker is deleted together with the old one. When flush() has returned the entry is out of date and
not marked. -/
theorem C21_violated_lost_mark (b : Backend) : ∃ (A : App) (D : List Denorm) (om : OrmModel) (cb : Callback) (db : Db) (ts ts' : List Turn)
    (s : Stmt), A.engine.backend = b ∧ Flushable A D om cb db ∧ KeysUnique A db ∧ KeysOk cb db ∧ StaleMarked cb db ∧ cb.KeysPlain om ∧
    (∀ t ∈ ts ++ ts', t = .flush) ∧ (∀ db1, LegalStmt A.engine cb db1 s) ∧
    (A.turns (ts ++ .other s :: ts') (.check, db)).1.returned = true ∧
    ∃ r ∈ (A.turns (ts ++ .other s :: ts') (.check, db)).2.rows cb.model.table,
      r cb.field ≠ cb.value (A.turns (ts ++ .other s :: ts') (.check, db)).2 r ∧
      ¬ Marked cb.model (A.turns (ts ++ .other s :: ts') (.check, db)).2 r :=
  ⟨Chain.app b, Chain.decls, Chain.entryOrm, Chain.label, Chain.busyDb, List.replicate 5 .flush, List.replicate 20 .flush, Chain.rename 1 "Y",
    rfl, Chain.flushable_label b _ _, Chain.busy_unique b, by unfold KeysOk; decide, by unfold StaleMarked; decide,
    by unfold Callback.KeysPlain; decide, fun t ht => by simpa using ht, fun _ => legal_set (by decide) (by decide),
    by cases b <;> decide +kernel, by cases b <;> decide +kernel⟩

/-- **C21 is violated** also for ordinary columns: flush() has loaded an entry; another session moves the entry to another blog; flush()
saves all columns of the instance it has loaded. The other session's change is gone. -/
theorem C21_violated_lost_update (b : Backend) : ∃ (A : App) (D : List Denorm) (om : OrmModel) (cb : Callback) (db : Db) (ts ts' : List Turn)
    (s : Stmt) (c : Col) (v : Val), A.engine.backend = b ∧ Flushable A D om cb db ∧ KeysUnique A db ∧ KeysOk cb db ∧ StaleMarked cb db ∧
    cb.KeysPlain om ∧ (∀ t ∈ ts ++ ts', t = .flush) ∧ (∀ db1, LegalStmt A.engine cb db1 s) ∧ c ∉ om.denormCols ∧
    (A.turns (ts ++ .other s :: ts') (.check, db)).1.returned = true ∧
    (∀ r ∈ db.rows cb.model.table, r c ≠ v) ∧
    (∀ r ∈ (A.turns (ts ++ [.other s]) (.check, db)).2.rows cb.model.table, r c = v) ∧
    ∀ r ∈ (A.turns (ts ++ .other s :: ts') (.check, db)).2.rows cb.model.table, r c ≠ v :=
  ⟨Chain.app b, Chain.decls, Chain.entryOrm, Chain.label, Chain.staleDb, List.replicate 3 .flush, List.replicate 40 .flush,
    .update "entry" (fun _ => true) (fun _ r => r.set "blog_id" (.int 2)), "blog_id", .int 2,
    rfl, Chain.flushable_label b _ _, Chain.stale_unique b _, by unfold KeysOk; decide, by unfold StaleMarked; decide,
    by unfold Callback.KeysPlain; decide, fun t ht => by simpa using ht, fun _ => legal_set (by decide) (by decide),
    by decide, by cases b <;> decide +kernel, by decide, by cases b <;> decide +kernel, by cases b <;> decide +kernel⟩

/-- **C21 is violated** by deletions: flush() has loaded an entry; another session deletes the entry; the UPDATE of save() matches no row, so
save() inserts the entry again. -/
theorem C21_violated_deletion (b : Backend) : ∃ (A : App) (D : List Denorm) (om : OrmModel) (cb : Callback) (db : Db) (ts ts' : List Turn)
    (s : Stmt) (k : Val), A.engine.backend = b ∧ Flushable A D om cb db ∧ KeysUnique A db ∧ KeysOk cb db ∧ StaleMarked cb db ∧
    cb.KeysPlain om ∧ (∀ t ∈ ts ++ ts', t = .flush) ∧ (∀ db1, LegalStmt A.engine cb db1 s) ∧
    (A.turns (ts ++ .other s :: ts') (.check, db)).1.returned = true ∧
    (∀ r ∈ (A.turns (ts ++ [.other s]) (.check, db)).2.rows cb.model.table, r cb.model.pk ≠ k) ∧
    ∃ r ∈ (A.turns (ts ++ .other s :: ts') (.check, db)).2.rows cb.model.table, r cb.model.pk = k :=
  ⟨Chain.app b, Chain.decls, Chain.entryOrm, Chain.label, Chain.staleDb, List.replicate 3 .flush, List.replicate 40 .flush,
    .delete "entry" (fun _ => true), .int 1,
    rfl, Chain.flushable_label b _ _, Chain.stale_unique b _, by unfold KeysOk; decide, by unfold StaleMarked; decide,
    by unfold Callback.KeysPlain; decide, fun t ht => by simpa using ht, fun _ d hd ht => by
      simp only [Chain.label, List.mem_singleton] at hd
      subst hd
      exact absurd ht (by decide),
    by cases b <;> decide +kernel, by cases b <;> decide +kernel, by cases b <;> decide +kernel⟩

end Denorm
