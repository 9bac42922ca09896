import Verif.Spec.Save
import Verif.Lemmas.Save
/-!
# save() of any instance, aggregates and cache keys
-/
namespace Denorm
variable {A : App} {E : Engine} {om : OrmModel} {db db1 db' : Db} {mem mem' r : Row}

/-- Two UPDATEs of one row that give it the same new version do the same. -/
theorem exec_update_congr {t : TableName} {w : Row → Bool} {σ σ' : Int → Row → Row} {i : Nat} (hT : targetsOf (db.rows t) w = [i])
    (hi : (db.rows t)[i]? = some r) (hσ : ∀ x, σ x r = σ' x r) (fuel : Nat) :
    E.exec fuel (.update t w σ) db = E.exec fuel (.update t w σ') db := by
  have hstart : ∀ σ : Int → Row → Row, E.start (.update t w σ) db = [.write .top t [.upd i σ]] := by
    intro σ
    simp only [Engine.start, Stmt.ops, Stmt.table, hT]
    cases E.backend <;> rfl
  rw [Engine.exec, Engine.exec, hstart, hstart]
  cases fuel with
  | zero => rfl
  | succ n => simp only [Engine.drain, Engine.step, applyOps, applyOp, hi, List.append_nil, hσ]

/-- What `pre_save` of a field left in its attribute. -/
theorem preSaveAll_at {m : Model} {add : Bool} : ∀ {fs : List SaveField} {mem mem' : Row},
    preSaveAll A m db add fs mem = .ok mem' → (fs.map SaveField.col).Nodup → m.pk ∉ fs.map SaveField.col → ∀ f ∈ fs,
      ∃ mid, mid m.pk = mem m.pk ∧ f.preSave A m db add mid = .ok (mem' f.col)
  | [], _, _, _, _, _, f, hf => by simp at hf
  | g :: fs, mem, mem', h, hn, hk, f, hf => by
    simp only [preSaveAll] at h
    cases hv : g.preSave A m db add mem with
    | error e => rw [hv] at h; simp at h
    | ok v =>
      rw [hv] at h
      simp only [List.map_cons, List.nodup_cons, List.mem_cons, not_or] at hn hk
      rcases List.mem_cons.1 hf with rfl | hf
      · refine ⟨mem, rfl, ?_⟩
        rw [hv, preSaveAll_other h f.col fun g hg e => hn.1 (List.mem_map.2 ⟨g, hg, e⟩)]
        simp [Row.set]
      · obtain ⟨mid, h1, h2⟩ := preSaveAll_at h hn.2 hk.2 f hf
        refine ⟨mid, ?_, h2⟩
        rw [h1]
        simp [Row.set, hk.1]

theorem find_unique (hu : om.Unique db) (hr : r ∈ db.rows om.model.table) {k : Val} (hk : r om.model.pk = k) (hn : k ≠ .null) :
    (db.rows om.model.table).find? (fun r => Val.sqlEq (r om.model.pk) k) = some r := by
  cases hf : (db.rows om.model.table).find? (fun r => Val.sqlEq (r om.model.pk) k) with
  | none =>
    have := List.find?_eq_none.1 hf r hr
    exact absurd (Val.sqlEq_iff.2 ⟨hk, hk ▸ hn⟩) this
  | some r' =>
    have h1 := List.mem_of_find?_eq_some hf
    have h2 := List.find?_some (p := fun r : Row => Val.sqlEq (r om.model.pk) k) hf
    have h3 : r' om.model.pk = k := (Val.sqlEq_iff.1 h2).1
    obtain ⟨i, hi, rfl⟩ := List.mem_iff_getElem.1 h1
    obtain ⟨j, hj, rfl⟩ := List.mem_iff_getElem.1 hr
    have := (List.getElem_inj (h₀ := by simpa using hi) (h₁ := by simpa using hj) hu).1 (by simp [h3, hk])
    subst this
    rfl

theorem preSave_aggregate (hu : om.Unique db) (hr : r ∈ db.rows om.model.table) (hk : r om.model.pk = mem om.model.pk)
    (hn : mem om.model.pk ≠ .null) {f : SaveField} (hf : f.kind.isAggregate = true) :
    f.preSave A om.model db false mem = .ok (r f.col) := by
  cases hkind : f.kind with
  | aggregate =>
    simp only [SaveField.preSave, hkind, Bool.false_eq_true, if_false]
    rw [find_unique hu hr hk hn]
  | _ => rw [hkind] at hf; simp [Kind.isAggregate] at hf

/-- The aggregate attributes after `pre_save` of all fields. -/
theorem preSaveAll_aggregate (hP : om.Proper) (hu : om.Unique db) (hr : r ∈ db.rows om.model.table)
    (hk : r om.model.pk = mem om.model.pk) (hn : mem om.model.pk ≠ .null) (h : preSaveAll A om.model db false om.saved mem = .ok mem')
    {f : SaveField} (hf : f ∈ om.saved) (ha : f.kind.isAggregate = true) : mem' f.col = r f.col := by
  obtain ⟨mid, h1, h2⟩ := preSaveAll_at h hP.cols hP.pk f hf
  rw [preSave_aggregate hu hr (hk.trans h1.symm) (h1 ▸ hn) ha] at h2
  simpa using h2.symm

theorem mem_otherCols {c : Col} : c ∈ om.otherCols ↔ ∃ f ∈ om.saved, f.col = c ∧ f.kind.isAggregate = false := by
  simp only [OrmModel.otherCols, List.mem_map, List.mem_filter, Bool.not_eq_true']
  constructor
  · rintro ⟨f, ⟨h1, h2⟩, h3⟩; exact ⟨f, h1, h3, h2⟩
  · rintro ⟨f, h1, h3, h2⟩; exact ⟨f, ⟨h1, h2⟩, h3⟩

/-- If the aggregates in memory are those of the row, save()'s UPDATE does what an UPDATE without them does. -/
theorem saveUpdate_eq_only (hu : om.Unique db) (hr : r ∈ db.rows om.model.table) (hk : r om.model.pk = mem om.model.pk)
    (hn : mem om.model.pk ≠ .null) (ha : ∀ f ∈ om.saved, f.kind.isAggregate = true → mem f.col = r f.col) (fuel : Nat) :
    E.exec fuel (saveUpdate om mem) db = E.exec fuel (updateOnly om.model (mem om.model.pk) om.otherCols mem) db := by
  obtain ⟨i, hi, rfl⟩ := List.mem_iff_getElem.1 hr
  have hi' : (db.rows om.model.table)[i]? = some (db.rows om.model.table)[i] := List.getElem?_eq_getElem hi
  refine exec_update_congr (targetsOf_unique hu hi' hk hn) hi' ?_ fuel
  intro x
  funext c
  by_cases h1 : c ∈ om.otherCols
  · obtain ⟨f, hf, rfl, _⟩ := mem_otherCols.1 h1
    simp only [h1, if_true, if_pos (List.mem_map.2 ⟨f, hf, rfl⟩)]
  · simp only [h1, if_false]
    split
    · next hc =>
      obtain ⟨f, hf, rfl⟩ := List.mem_map.1 hc
      refine ha f hf ?_
      cases hb : f.kind.isAggregate with
      | true => rfl
      | false => exact absurd (mem_otherCols.2 ⟨f, hf, rfl, hb⟩) h1
    · rfl

theorem exec_ok {s : Stmt} (h : A.exec s db = .ok db') : A.engine.exec A.fuel s db = .ok db' := by
  simp only [App.exec] at h
  cases he : A.engine.exec A.fuel s db with
  | ok x => rw [he] at h; simpa using h
  | error e => rw [he] at h; simp at h

/-- save() of an existing instance, taken apart. -/
theorem saveBetween_existing (hr : ∃ r ∈ db1.rows om.model.table, r om.model.pk = mem om.model.pk) (hn : mem om.model.pk ≠ .null)
    (h : A.saveBetween om mem db db1 = .ok (db', mem')) :
    preSaveAll A om.model db false om.saved mem = .ok mem' ∧ A.engine.exec A.fuel (saveUpdate om mem') db1 = .ok db' := by
  simp only [App.saveBetween] at h
  cases hp : preSaveAll A om.model db false om.saved mem with
  | error e => rw [hp] at h; simp at h
  | ok mem1 =>
    rw [hp] at h
    have hany : (db1.rows om.model.table).any (isRowOf om.model (mem om.model.pk)) = true := by
      obtain ⟨r, hr, hk⟩ := hr
      exact List.any_eq_true.2 ⟨r, hr, Val.sqlEq_iff.2 ⟨hk, hk ▸ hn⟩⟩
    simp only [hany, if_true] at h
    cases he : A.exec (saveUpdate om mem1) db1 with
    | error e => rw [he] at h; simp at h
    | ok x =>
      rw [he] at h
      simp only [Except.ok.injEq, Prod.mk.injEq] at h
      obtain ⟨rfl, rfl⟩ := h
      exact ⟨rfl, exec_ok he⟩

theorem preSaveAll_pk (hP : om.Proper) {add : Bool} (h : preSaveAll A om.model db add om.saved mem = .ok mem') :
    mem' om.model.pk = mem om.model.pk :=
  preSaveAll_other h _ fun f hf e => hP.pk (List.mem_map.2 ⟨f, hf, e⟩)

end Denorm
