import Verif.Lemmas.SaveAgg
/-!
# What the database holds after save()
-/
namespace Denorm
variable {A : App} {E : Engine} {om : OrmModel} {db db1 db' : Db} {mem mem' r : Row}

/-- MySQL refuses to write a table that an enclosing statement is writing. -/
def Locked (t : TableName) : Item → Prop
  | .write fr t' _ => t' ≠ t ∧ t ∈ fr.tables
  | .act fr _ _ => t ∈ fr.tables

theorem lockedInv {t : TableName} {R : List Row} (hE : E.backend = .mysql) :
    StepInv E fun W db => db.rows t = R ∧ ∀ it ∈ W, Locked t it where
  perm := fun hp ⟨h1, h2⟩ => ⟨h1, fun it hit => h2 it (hp.mem_iff.2 hit)⟩
  writeNil := fun ⟨h1, h2⟩ => ⟨h1, fun it hit => h2 it (List.mem_cons_of_mem _ hit)⟩
  writeOp := by
    rintro fr t' op ops W db ⟨h1, h2⟩
    have h3 := h2 _ (List.mem_cons_self ..)
    refine ⟨?_, fun it hit => ?_⟩
    · rw [← h1]
      cases op with
      | ins r => simp only [applyOp]; exact Db.setRows_other _ _ (Ne.symm h3.1)
      | upd i σ =>
        simp only [applyOp]
        cases (db.rows t')[i]? with
        | none => rfl
        | some old => exact Db.setRows_other _ _ (Ne.symm h3.1)
      | del w =>
        simp only [applyOp]
        cases (db.rows t').find? w with
        | none => rfl
        | some old => exact Db.setRows_other _ _ (Ne.symm h3.1)
    · rcases List.mem_cons.1 hit with rfl | hit
      · exact h3
      rcases List.mem_append.1 hit with hit | hit
      · obtain ⟨ch, _, hit⟩ := List.mem_flatMap.1 hit
        obtain ⟨tr, _, _, a, _, rfl⟩ := mem_fired.1 hit
        exact List.mem_cons_of_mem _ h3.2
      · exact h2 it (List.mem_cons_of_mem _ hit)
  markValues := fun ⟨h1, h2⟩ => ⟨h1, fun it hit => h2 it (List.mem_cons_of_mem _ hit)⟩
  markSelect := fun ⟨h1, h2⟩ => ⟨h1, fun it hit => h2 it (List.mem_cons_of_mem _ hit)⟩
  update := by
    rintro fr ch u W db hu ⟨h1, h2⟩
    have h3 : t ∈ fr.tables := h2 _ (List.mem_cons_self ..)
    refine ⟨h1, fun it hit => ?_⟩
    rcases List.mem_append.1 hit with hit | hit
    · obtain ⟨l, rfl, _⟩ := mem_writes hit
      exact ⟨fun e => hu ⟨hE, e ▸ h3⟩, h3⟩
    · exact h2 it (List.mem_cons_of_mem _ hit)

theorem saveReached_closed (E : Engine) (om : OrmModel) : Closed E (SaveReached E om) :=
  fun _ _ h _ htr ht he hc _ hu => .next h htr ht he hc hu

/-- After the first write of a statement on `om`'s table, safe columns stay. -/
theorem settled {fuel : Nat} {ch : Change} (ht : ch.table = om.model.table)
    (hch : (ch.event = .insert) ∨ (ch.event = .update ∧ ∀ c, c ∉ om.cols → ch.old c = ch.new c))
    (he : E.drain fuel (E.fired .top ch) db1 = .ok db') :
    Pw (fun r r' => ∀ c, SaveSafe E om c → r' c = r c) (db1.rows om.model.table) (db'.rows om.model.table) := by
  by_cases hE : E.backend = .mysql
  · have := (lockedInv (t := om.model.table) (R := db1.rows om.model.table) hE).drain _ _ _ _ he ⟨rfl, ?_⟩
    · rw [this.1]; exact Pw.refl (fun _ _ _ => rfl) _
    · intro it hit
      obtain ⟨tr, _, _, a, _, rfl⟩ := mem_fired.1 hit
      simp [Locked, ht]
  · have := (confinedInv (saveReached_closed E om) db1).drain _ _ _ _ he ⟨SameOutside.refl _ _, ?_⟩
    · exact (this.1 om.model.table).imp fun _ _ _ _ hr c hc => hr c (hc.resolve_left hE)
    · intro it hit
      obtain ⟨tr, htr, hen, a, ha, rfl⟩ := mem_fired.1 hit
      simp only [Engine.enters, Bool.and_eq_true, decide_eq_true_eq] at hen
      cases a with
      | markValues => trivial
      | markSelect => trivial
      | update u =>
        rcases hch with h | ⟨h, hc⟩
        · exact .inserted htr (hen.1.1.1.trans ht) (hen.1.1.2.trans h) ha
        · refine .updated htr (hen.1.1.1.trans ht) (hen.1.1.2.trans h) ?_ ha
          obtain ⟨tab, ev, o, n⟩ := ch
          simp only at h hc
          subst h
          refine (fires_update hen.1.1.2 hen.1.2).imp id ?_
          rintro ⟨c, h1, h2⟩
          exact ⟨c, h1, Classical.byContradiction fun h3 => h2 (hc c h3)⟩

/-- The only row with the key of the row `m1` that was written holds what was written, in safe columns. -/
theorem stored_of {i : Nat} {m1 : Row} (hp : Pw (fun r r' => ∀ c, SaveSafe E om c → r' c = r c) (db1.rows om.model.table)
    (db'.rows om.model.table)) (hi : (db1.rows om.model.table)[i]? = some m1) (hu : om.Unique db1) (hpk : SaveSafe E om om.model.pk) :
    (∃ r ∈ db'.rows om.model.table, r om.model.pk = m1 om.model.pk) ∧
    ∀ r ∈ db'.rows om.model.table, r om.model.pk = m1 om.model.pk → ∀ c, SaveSafe E om c → r c = m1 c := by
  have hm := List.mem_of_getElem? hi
  refine ⟨?_, fun r hr hk c hc => ?_⟩
  · obtain ⟨r', h1, h2⟩ := hp.left hm
    exact ⟨r', h1, h2 _ hpk⟩
  · obtain ⟨r0, h1, h2⟩ := hp.right hr
    obtain ⟨j, hj, rfl⟩ := List.mem_iff_getElem.1 h1
    obtain ⟨hil, hie⟩ := List.getElem?_eq_some_iff.1 hi
    have := (List.getElem_inj (h₀ := by simpa using hj) (h₁ := by simpa using hil) hu).1 (by
      simp only [List.getElem_map]
      rw [← h2 _ hpk, hk, hie])
    subst this
    rw [h2 c hc, hie]

/-- The UPDATE of save(): the whole row. -/
theorem stored_row {fuel : Nat} {r0 : Row} (hP : om.Proper) (hu : om.Unique db) (hr : r0 ∈ db.rows om.model.table)
    (hk : r0 om.model.pk = mem om.model.pk) (hn : mem om.model.pk ≠ .null) (hpk : SaveSafe E om om.model.pk)
    (he : E.exec fuel (saveUpdate om mem) db = .ok db') :
    (∃ r ∈ db'.rows om.model.table, r om.model.pk = mem om.model.pk) ∧
    ∀ r ∈ db'.rows om.model.table, r om.model.pk = mem om.model.pk → ∀ c, SaveSafe E om c → r c = savedRow om mem r0 c := by
  obtain ⟨i, hil, rfl⟩ := List.mem_iff_getElem.1 hr
  have hi : (db.rows om.model.table)[i]? = some (db.rows om.model.table)[i] := List.getElem?_eq_getElem hil
  have hT := targetsOf_unique hu hi hk hn
  have hstart : E.start (saveUpdate om mem) db = [.write .top om.model.table [.upd i fun _ r => savedRow om mem r]] := by
    simp only [Engine.start, saveUpdate, Stmt.ops, Stmt.table, hT]
    cases E.backend <;> rfl
  rw [Engine.exec, hstart] at he
  cases fuel with
  | zero => simp [Engine.drain] at he
  | succ n =>
    simp only [Engine.drain, Engine.step, applyOps, applyOp, hi, List.append_nil, List.flatMap_cons, List.flatMap_nil] at he
    have hp := settled (om := om) (by rfl) (.inr ⟨rfl, fun c hc => by simp only [OrmModel.cols] at hc; simp [savedRow, hc]⟩) he
    have hpk' : savedRow om mem (db.rows om.model.table)[i] om.model.pk = mem om.model.pk := by
      have := hP.pk
      simp only [OrmModel.cols] at this
      simp [savedRow, this, hk]
    have h := stored_of (i := i) (m1 := savedRow om mem (db.rows om.model.table)[i]) hp
      (by rw [Db.setRows_same]; simp [hil]) ?_ hpk
    · rw [hpk'] at h
      exact h
    · unfold OrmModel.Unique
      rw [Db.setRows_same, List.map_set, hpk', ← hk]
      have : ((db.rows om.model.table).map fun r => r om.model.pk).set i ((db.rows om.model.table)[i] om.model.pk) =
          (db.rows om.model.table).map fun r => r om.model.pk := by
        rw [show (db.rows om.model.table)[i] om.model.pk = ((db.rows om.model.table).map fun r => r om.model.pk)[i]'(by simpa using hil) from by simp]
        exact List.set_getElem_self _
      rw [this]
      exact hu

/-- The UPDATE of save(). -/
theorem stored_update {fuel : Nat} (hP : om.Proper) (hu : om.Unique db) (hr : r ∈ db.rows om.model.table)
    (hk : r om.model.pk = mem om.model.pk) (hn : mem om.model.pk ≠ .null) (hpk : SaveSafe E om om.model.pk)
    (he : E.exec fuel (saveUpdate om mem) db = .ok db') :
    (∃ r ∈ db'.rows om.model.table, r om.model.pk = mem om.model.pk) ∧
    ∀ r ∈ db'.rows om.model.table, r om.model.pk = mem om.model.pk → ∀ c ∈ om.cols, SaveSafe E om c → r c = mem c := by
  have h := stored_row hP hu hr hk hn hpk he
  refine ⟨h.1, fun r hr hk c hc hs => ?_⟩
  rw [h.2 r hr hk c hs]
  simp only [OrmModel.cols] at hc
  simp [savedRow, hc]

/-- The INSERT of save(). -/
theorem stored_insert {fuel : Nat} (hu : om.Unique db) (hnew : ∀ r ∈ db.rows om.model.table, r om.model.pk ≠ mem om.model.pk)
    (hpk : SaveSafe E om om.model.pk) (he : E.exec fuel (.insert om.model.table [mem]) db = .ok db') :
    (∃ r ∈ db'.rows om.model.table, r om.model.pk = mem om.model.pk) ∧
    ∀ r ∈ db'.rows om.model.table, r om.model.pk = mem om.model.pk → ∀ c, SaveSafe E om c → r c = mem c := by
  have hstart : E.start (.insert om.model.table [mem]) db = [.write .top om.model.table [.ins mem]] := by
    simp only [Engine.start, Stmt.ops, Stmt.table]
    cases E.backend <;> rfl
  rw [Engine.exec, hstart] at he
  cases fuel with
  | zero => simp [Engine.drain] at he
  | succ n =>
    simp only [Engine.drain, Engine.step, applyOps, applyOp, List.append_nil, List.flatMap_cons, List.flatMap_nil] at he
    have hp := settled (om := om) (by rfl) (.inl rfl) he
    refine stored_of (i := (db.rows om.model.table).length) (m1 := mem) hp (by rw [Db.setRows_same]; simp) ?_ hpk
    unfold OrmModel.Unique
    rw [Db.setRows_same, List.map_append, List.nodup_append]
    refine ⟨hu, by simp, fun a ha b hb => ?_⟩
    obtain ⟨r, hr, rfl⟩ := List.mem_map.1 ha
    simp only [List.map_cons, List.map_nil, List.mem_singleton] at hb
    rw [hb]
    exact hnew r hr

end Denorm
