import Verif.Code.Evaluations
import Verif.Spec.FlushRun
import Verif.Spec.Evaluations
import Verif.Lemmas.Visits
/-! # Recorded calls of callbacks -/
namespace Denorm

variable {A : App} {om : OrmModel} {db db' : Db} {mem : Row}

/-! ## Apart from the record nothing is different -/

theorem preSaveR_snd (m : Model) (add : Bool) (f : SaveField) : (f.preSaveR A m db add mem).2 = f.preSave A m db add mem := by
  unfold SaveField.preSaveR SaveField.preSave
  split <;> simp_all

theorem preSaveAllR_snd (m : Model) (add : Bool) : ∀ (fs : List SaveField) (mem : Row),
    (preSaveAllR A m db add fs mem).2 = preSaveAll A m db add fs mem
  | [], _ => rfl
  | f :: fs, mem => by
    have h := preSaveR_snd (A := A) (db := db) (mem := mem) m add f
    simp only [preSaveAllR, preSaveAll, ← h]
    rcases f.preSaveR A m db add mem with ⟨l, e | v⟩
    · rfl
    · exact preSaveAllR_snd m add fs _

theorem saveR_snd : (A.saveR om mem db).2 = A.save om mem db := by
  unfold App.saveR App.save
  rw [← preSaveAllR_snd]
  rcases preSaveAllR A om.model db false om.saved mem with ⟨l, e | mem1⟩
  · rfl
  · simp only
    split
    · cases A.exec (saveUpdate om mem1) db <;> rfl
    · rw [← preSaveAllR_snd]
      rcases preSaveAllR A om.model db true om.saved mem1 with ⟨l', e | mem2⟩
      · rfl
      · simp only
        cases A.exec (.insert om.model.table [mem2]) db <;> rfl

theorem createR_snd {k : Val} : (A.createR om mem k db).2 = A.create om mem k db := by
  unfold App.createR App.create
  rw [← preSaveAllR_snd]
  rcases preSaveAllR A om.model db true om.saved mem with ⟨l, e | mem1⟩
  · rfl
  · simp only
    cases A.exec (.insert om.model.table [mem1.set om.model.pk k]) db <;> rfl

theorem flushOneR_snd (m : Mark) (db : Db) : (A.flushOneR m db).2 = A.flushOne m db := by
  unfold App.flushOneR App.flushOne App.saveObject
  rcases A.contentObject db m with e | _ | ⟨om, r⟩
  · rfl
  · rfl
  · simp only [saveR_snd]
    rcases A.save om r db with e | ⟨d, r'⟩ <;> rfl

theorem flushListR_snd : ∀ (ms : List Mark) (db : Db), (A.flushListR ms db).2 = A.flushList ms db
  | [], _ => rfl
  | m :: ms, db => by
    simp only [App.flushListR, App.flushList, ← flushOneR_snd]
    rcases A.flushOneR m db with ⟨l, e | d⟩
    · rfl
    · exact flushListR_snd ms d

theorem flushR_snd : ∀ (n : Nat) (db : Db), (A.flushR n db).2 = A.flush n db
  | 0, db => by unfold App.flushR App.flush; split <;> rfl
  | n + 1, db => by
    unfold App.flushR App.flush
    split
    · rfl
    · simp only [App.pass, ← flushListR_snd]
      rcases A.flushListR (A.snapshot db) db with ⟨l, e | d⟩
      · rfl
      · exact flushR_snd n d

/-! ## What is recorded -/

theorem preSave_existing {m : Model} {f : SaveField} {r : Row} (hr : r ∈ db.rows m.table) (hk : Val.sqlEq (r m.pk) (mem m.pk) = true) :
    ∃ v, f.preSave A m db false mem = .ok v := by
  unfold SaveField.preSave
  split
  · exact ⟨_, rfl⟩
  · exact ⟨_, rfl⟩
  · simp only [Bool.false_eq_true, if_false]
    cases hf : (db.rows m.table).find? fun r => Val.sqlEq (r m.pk) (mem m.pk) with
    | some r' => exact ⟨_, rfl⟩
    | none => exact absurd hk (by simpa using List.find?_eq_none.1 hf r hr)
  · exact ⟨_, rfl⟩

theorem preSave_add {m : Model} {f : SaveField} : ∃ v, f.preSave A m db true mem = .ok v := by
  unfold SaveField.preSave
  split
  · exact ⟨_, rfl⟩
  · exact ⟨_, rfl⟩
  · exact ⟨_, rfl⟩
  · exact ⟨_, rfl⟩

theorem preSaveR_fst (m : Model) (add : Bool) (f : SaveField) :
    (f.preSaveR A m db add mem).1 = ([f].filter fun f => f.kind.isCallback).map fun f => ⟨⟨m.ct, mem m.pk⟩, f.col⟩ := by
  unfold SaveField.preSaveR
  cases h : f.kind <;> simp [Kind.isCallback, h]

/-- As long as no `pre_save` raises, each callback is called once, for the instance with its key. -/
theorem preSaveAllR_fst (m : Model) (add : Bool) : ∀ (fs : List SaveField) (mem : Row), m.pk ∉ fs.map SaveField.col →
    (∀ mem' : Row, mem' m.pk = mem m.pk → ∀ f ∈ fs, ∃ v, f.preSave A m db add mem' = .ok v) →
    (∃ mem', (preSaveAllR A m db add fs mem).2 = .ok mem' ∧ mem' m.pk = mem m.pk) ∧
    (preSaveAllR A m db add fs mem).1 = (fs.filter fun f => f.kind.isCallback).map fun f => ⟨⟨m.ct, mem m.pk⟩, f.col⟩
  | [], mem, _, _ => ⟨⟨mem, rfl, rfl⟩, rfl⟩
  | f :: fs, mem, hpk, hok => by
    simp only [List.map_cons, List.mem_cons, not_or] at hpk
    obtain ⟨v, hv⟩ := hok mem rfl f (by simp)
    have h1 : (f.preSaveR A m db add mem).2 = .ok v := by rw [preSaveR_snd, hv]
    have h2 := preSaveR_fst (A := A) (db := db) (mem := mem) m add f
    have hset : (mem.set f.col v) m.pk = mem m.pk := by simp [Row.set, hpk.1]
    obtain ⟨⟨mem', e1, e2⟩, e3⟩ := preSaveAllR_fst m add fs (mem.set f.col v) hpk.2
      (fun mem' hm f' hf' => hok mem' (hm.trans hset) f' (List.mem_cons_of_mem _ hf'))
    simp only [preSaveAllR]
    rcases hp : f.preSaveR A m db add mem with ⟨l, r⟩
    rw [hp] at h1 h2
    simp only at h1 h2
    subst h1
    refine ⟨⟨mem', e1, e2.trans hset⟩, ?_⟩
    simp only [e3, h2, hset]
    rw [← List.map_append, ← List.filter_append]
    rfl

/-- save() of an instance that has a row. -/
theorem saveR_existing (hpk : om.model.pk ∉ om.cols) {r : Row} (hr : r ∈ db.rows om.model.table)
    (hk : Val.sqlEq (r om.model.pk) (mem om.model.pk) = true) :
    (A.saveR om mem db).1 = om.callbackCols.map fun c => ⟨⟨om.model.ct, mem om.model.pk⟩, c⟩ := by
  obtain ⟨⟨mem', e1, _⟩, e3⟩ := preSaveAllR_fst (A := A) (db := db) om.model false om.saved mem hpk
    (fun mem' hm f _ => preSave_existing hr (by rw [hm]; exact hk))
  have hany : (db.rows om.model.table).any (isRowOf om.model (mem om.model.pk)) = true := List.any_eq_true.2 ⟨r, hr, hk⟩
  unfold App.saveR
  rcases hp : preSaveAllR A om.model db false om.saved mem with ⟨l, r⟩
  rw [hp] at e1 e3
  simp only at e1 e3
  subst e1
  simp only [hany, if_true, e3, OrmModel.callbackCols, List.map_map]
  rfl

/-- save() of an instance that has a key and no row (and no CountField or SumField). -/
theorem saveR_missing (hpk : om.model.pk ∉ om.cols) (hno : ∀ r ∈ db.rows om.model.table, Val.sqlEq (r om.model.pk) (mem om.model.pk) = false)
    (hagg : ∀ f ∈ om.saved, f.kind.isAggregate = false) :
    (A.saveR om mem db).1 = (om.callbackCols ++ om.callbackCols).map fun c => ⟨⟨om.model.ct, mem om.model.pk⟩, c⟩ := by
  obtain ⟨⟨mem1, e1, e2⟩, e3⟩ := preSaveAllR_fst (A := A) (db := db) om.model false om.saved mem hpk (by
    intro mem' hm f hf
    have := hagg f hf
    unfold SaveField.preSave
    cases hk : f.kind with
    | aggregate => simp [hk, Kind.isAggregate] at this
    | plain => exact ⟨_, rfl⟩
    | callback cb => exact ⟨_, rfl⟩
    | cacheKey => exact ⟨_, rfl⟩)
  obtain ⟨⟨mem2, g1, _⟩, g3⟩ := preSaveAllR_fst (A := A) (db := db) om.model true om.saved mem1 hpk (fun _ _ _ _ => preSave_add)
  have hany : (db.rows om.model.table).any (isRowOf om.model (mem om.model.pk)) = false := by
    simpa [isRowOf] using hno
  unfold App.saveR
  rcases hp : preSaveAllR A om.model db false om.saved mem with ⟨l, r⟩
  rw [hp] at e1 e3
  simp only at e1 e3
  subst e1
  rcases hp2 : preSaveAllR A om.model db true om.saved mem1 with ⟨l2, r2⟩
  rw [hp2] at g1 g3
  simp only at g1 g3
  subst g1
  simp only [hany, hp2, Bool.false_eq_true, if_false, e3, g3, e2, OrmModel.callbackCols, List.map_append, List.map_map]
  rfl

/-- A created instance. -/
theorem createR_fst (hpk : om.model.pk ∉ om.cols) {k : Val} :
    (A.createR om mem k db).1 = om.callbackCols.map fun c => ⟨⟨om.model.ct, mem om.model.pk⟩, c⟩ := by
  obtain ⟨⟨mem', e1, _⟩, e3⟩ := preSaveAllR_fst (A := A) (db := db) om.model true om.saved mem hpk (fun _ _ _ _ => preSave_add)
  unfold App.createR
  rcases hp : preSaveAllR A om.model db true om.saved mem with ⟨l, r⟩
  rw [hp] at e1 e3
  simp only at e1 e3
  subst e1
  simp only [e3, OrmModel.callbackCols, List.map_map]
  rfl

/-! ## flush() -/

theorem flushOneR_fst (hpk : ∀ om ∈ A.models, om.model.pk ∉ om.cols) (m : Mark) (db : Db) :
    (A.flushOneR m db).1 = (match A.contentObject db m with
      | .ok (some _) => [m]
      | _ => []).flatMap A.callsFor := by
  unfold App.flushOneR
  cases hc : A.contentObject db m with
  | error e => rfl
  | ok o =>
    cases o with
    | none => rfl
    | some p =>
      obtain ⟨om, r⟩ := p
      simp only [List.flatMap_cons, List.flatMap_nil, List.append_nil]
      unfold App.contentObject at hc
      cases hf : A.models.find? (fun om => om.model.ct == m.ct) with
      | none => rw [hf] at hc; simp at hc
      | some om' =>
        rw [hf] at hc
        simp only at hc
        cases hr : (db.rows om'.model.table).find? (isRowOf om'.model m.oid) with
        | none => rw [hr] at hc; simp at hc
        | some r' =>
          rw [hr] at hc
          simp only [Except.ok.injEq, Option.some.injEq, Prod.mk.injEq] at hc
          obtain ⟨rfl, rfl⟩ := hc
          have h1 := List.find?_some hr
          have h2 : r' om'.model.pk = m.oid := (Val.sqlEq_iff.1 h1).1
          have hct : om'.model.ct = m.ct := by simpa using List.find?_some hf
          rw [saveR_existing (hpk _ (List.mem_of_find?_eq_some hf)) (List.mem_of_find?_eq_some hr) (by
            simp only [isRowOf] at h1
            rw [h2]; rw [h2] at h1; exact h1)]
          simp only [App.callsFor, hf, h2, hct]

theorem flushListR_fst (hpk : ∀ om ∈ A.models, om.model.pk ∉ om.cols) : ∀ (ms : List Mark) (db : Db),
    (A.flushListR ms db).1 = (A.savedIn ms db).flatMap A.callsFor
  | [], _ => rfl
  | m :: ms, db => by
    have h1 := flushOneR_fst hpk m db
    have h2 := flushOneR_snd (A := A) m db
    simp only [App.flushListR, App.savedIn, List.flatMap_append, ← h2]
    rcases hq : A.flushOneR m db with ⟨l, e | d⟩
    · rw [hq] at h1
      simp only [List.flatMap_nil, List.append_nil]
      exact h1
    · rw [hq] at h1
      simp only [flushListR_fst hpk ms d]
      exact congrArg (· ++ _) h1

theorem flushR_fst (hpk : ∀ om ∈ A.models, om.model.pk ∉ om.cols) : ∀ (n : Nat) (db : Db),
    (A.flushR n db).1 = (A.flushSaves n db).flatMap A.callsFor
  | 0, db => by unfold App.flushR App.flushSaves; split <;> rfl
  | n + 1, db => by
    unfold App.flushR App.flushSaves
    split
    · rfl
    · have h1 := flushListR_fst hpk (A.snapshot db) db
      have h2 := flushListR_snd (A := A) (A.snapshot db) db
      simp only [List.flatMap_append, App.pass, ← h1, ← h2]
      rcases A.flushListR (A.snapshot db) db with ⟨l, e | d⟩
      · simp
      · simp only [flushR_fst hpk n d]

theorem count_flatMap_calls (e : Evaluation) : ∀ ms : List Mark,
    (ms.flatMap A.callsFor).count e = ms.count e.instance_ * (A.callsFor e.instance_).count e
  | [] => by simp
  | m :: ms => by
    rw [List.flatMap_cons, List.count_append, count_flatMap_calls e ms, List.count_cons]
    by_cases h : m = e.instance_
    · subst h; simp [Nat.add_mul, Nat.add_comm]
    · have : (A.callsFor m).count e = 0 := by
        apply List.count_eq_zero.2
        intro he
        apply h
        unfold App.callsFor at he
        split at he
        · obtain ⟨c, _, rfl⟩ := List.mem_map.1 he; rfl
        · simp at he
      simp [this, h]

theorem count_callsFor {e : Evaluation} (h : ∀ om ∈ A.models, om.cols.Nodup) :
    (A.callsFor e.instance_).count e =
      if ∃ om, A.models.find? (fun om => om.model.ct == e.instance_.ct) = some om ∧ e.field ∈ om.callbackCols then 1 else 0 := by
  unfold App.callsFor
  cases hf : A.models.find? (fun om => om.model.ct == e.instance_.ct) with
  | none => simp
  | some om =>
    have hn : om.callbackCols.Nodup :=
      (List.Sublist.map SaveField.col List.filter_sublist).nodup (h om (List.mem_of_find?_eq_some hf))
    have hm : (om.callbackCols.map fun c => (⟨e.instance_, c⟩ : Evaluation)).Nodup := by
      rw [List.nodup_iff_pairwise_ne] at hn ⊢
      rw [List.pairwise_map]
      exact hn.imp fun hne he => hne (by simpa using he)
    simp only [Option.some.injEq, exists_eq_left']
    rw [hm.count]
    congr 1
    rcases e with ⟨i, c⟩
    simp

end Denorm
