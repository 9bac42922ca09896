import Verif.Code.Emptied
import Verif.Lemmas.Transparent
import Verif.Lemmas.Returns
import Verif.Lemmas.Finishes
/-!
# Lemmas about emptying the database
-/
namespace Denorm

theorem Pw.nil_right {R : Row → Row → Prop} {l : List Row} (h : Pw R [] l) : l = [] := by cases h; rfl

theorem exec_emptied {E : Engine} {fuel : Nat} {t : TableName} {db db' : Db} (h : E.exec fuel (.delete t fun _ => true) db = .ok db') :
    db'.rows t = [] ∧ ∀ t', db.rows t' = [] → db'.rows t' = [] := by
  have hp := exec_plain (K := fun _ _ => True) (s := .delete t fun _ => true) (fun _ _ _ => trivial) (fun _ _ _ => rfl) h
  have h0 : ((db.rows t).filter fun r => !(fun _ : Row => true) r) = [] := by simp
  have h1 : db'.rows t = [] := by
    have := hp t
    simp only [Stmt.alone, Stmt.table, if_pos] at this
    rw [h0] at this
    exact this.nil_right
  refine ⟨h1, fun t' ht' => ?_⟩
  by_cases e : t' = t
  · rw [e]; exact h1
  · have := hp t'
    unfold Stmt.alone at this
    rw [if_neg (show t' ≠ Stmt.table (.delete t fun _ => true) from e), ht'] at this
    exact this.nil_right

theorem stepInv_mark (E : Engine) (m : Mark) : StepInv E fun _ db => m ∈ db.dirty where
  perm := fun _ h => h
  writeNil := fun h => h
  writeOp := fun h => by rw [applyOp_dirty]; exact h
  markValues := fun h => List.mem_append_left _ h
  markSelect := fun h => List.mem_append_left _ h
  update := fun _ h => h

/-- A statement removes no markers. -/
theorem exec_keeps_marks {E : Engine} {fuel : Nat} {s : Stmt} {db db' : Db} (h : E.exec fuel s db = .ok db') {m : Mark} (hm : m ∈ db.dirty) :
    m ∈ db'.dirty := (stepInv_mark E m).exec h hm

/-- Nothing is left to do but to delete rows of `t`, where nothing watches. -/
def OnlyDeletes (E : Engine) (t : TableName) (d : List Mark) (W : List Item) (db : Db) : Prop :=
  db.dirty = d ∧ ∀ it ∈ W, ∃ fr l, it = .write fr t l ∧ ∀ op ∈ l, (∃ w, op = .del w) ∧ ∀ tr ∈ E.triggers, tr.table = t → tr.event ≠ .delete

theorem stepInv_onlyDeletes (E : Engine) (t : TableName) (d : List Mark) : StepInv E (OnlyDeletes E t d) where
  perm := fun hp h => ⟨h.1, fun it hit => h.2 it (hp.mem_iff.2 hit)⟩
  writeNil := fun h => ⟨h.1, fun it hit => h.2 it (List.mem_cons_of_mem _ hit)⟩
  writeOp := by
    intro fr t' op ops W db h
    obtain ⟨fr', l, e, hl⟩ := h.2 _ (List.mem_cons_self ..)
    simp only [Item.write.injEq] at e
    obtain ⟨rfl, rfl, rfl⟩ := e
    obtain ⟨⟨w, rfl⟩, hq⟩ := hl _ (List.mem_cons_self ..)
    have hnone : (applyOp E t' (.del w) db).2.flatMap (E.fired fr) = [] := by
      simp only [applyOp]
      cases (db.rows t').find? w with
      | none => rfl
      | some old =>
        simp only [List.flatMap_cons, List.flatMap_nil, List.append_nil, Engine.fired]
        have : E.triggers.filter (E.enters fr ⟨t', .delete, old, old⟩) = [] := by
          rw [List.filter_eq_nil_iff]
          intro tr htr
          have := hq tr htr
          simp only [Engine.enters]
          by_cases h1 : tr.table = t' <;> simp [h1]
          intro h2
          exact absurd h2 (this h1)
        rw [this]; rfl
    rw [hnone]
    refine ⟨by rw [applyOp_dirty]; exact h.1, fun it hit => ?_⟩
    simp only [List.nil_append, List.mem_cons] at hit
    rcases hit with rfl | hit
    · exact ⟨_, _, rfl, fun op hop => hl op (List.mem_cons_of_mem _ hop)⟩
    · exact h.2 it (List.mem_cons_of_mem _ hit)
  markValues := fun h => by obtain ⟨_, _, e, _⟩ := h.2 _ (List.mem_cons_self ..); cases e
  markSelect := fun h => by obtain ⟨_, _, e, _⟩ := h.2 _ (List.mem_cons_self ..); cases e
  update := fun _ h => by obtain ⟨_, _, e, _⟩ := h.2 _ (List.mem_cons_self ..); cases e

/-- Emptying a table that is empty already, or where no trigger watches deletions, marks nothing. -/
theorem exec_marks_nothing {E : Engine} {fuel : Nat} {t : TableName} {db db' : Db} (h : E.exec fuel (.delete t fun _ => true) db = .ok db')
    (hq : db.rows t = [] ∨ ∀ tr ∈ E.triggers, tr.table = t → tr.event ≠ .delete) : db'.dirty = db.dirty := by
  refine ((stepInv_onlyDeletes E t db.dirty).exec h ⟨rfl, fun it hit => ?_⟩).1
  obtain ⟨l, rfl, hl⟩ := mem_writes hit
  refine ⟨_, l, rfl, fun op hop => ?_⟩
  have hop' := hl op hop
  simp only [Stmt.ops, List.mem_map] at hop'
  obtain ⟨i, hi, rfl⟩ := hop'
  refine ⟨⟨_, rfl⟩, ?_⟩
  rcases hq with hq | hq
  · simp [targetsOf, hq] at hi
  · exact hq

section
variable {E : Engine} {fuel : Nat}

theorem emptyAll_empty : ∀ {xs : List Emptied} {db db' : Db}, E.emptyAll fuel xs db = .ok db' →
    (∀ t, .table t ∈ xs → db'.rows t = []) ∧ ∀ t, db.rows t = [] → db'.rows t = []
  | [], db, db', h => by
    simp only [Engine.emptyAll, Except.ok.injEq] at h
    subst h
    exact ⟨(fun _ ht => nomatch ht), fun _ ht => ht⟩
  | x :: xs, db, db', h => by
    simp only [Engine.emptyAll] at h
    cases hx : E.emptyOne fuel db x with
    | error e => rw [hx] at h; cases h
    | ok db1 =>
      rw [hx] at h
      obtain ⟨h1, h2⟩ := emptyAll_empty h
      cases x with
      | markers =>
        simp only [Engine.emptyOne, Except.ok.injEq] at hx
        subst hx
        refine ⟨fun t ht => ?_, fun t ht => h2 t ht⟩
        rcases List.mem_cons.1 ht with e | ht
        · cases e
        · exact h1 t ht
      | table t0 =>
        obtain ⟨h3, h4⟩ := exec_emptied hx
        refine ⟨fun t ht => ?_, fun t ht => h2 t (h4 t ht)⟩
        rcases List.mem_cons.1 ht with e | ht
        · cases e; exact h2 _ h3
        · exact h1 t ht

theorem emptyAll_append : ∀ {xs ys : List Emptied} {db db' : Db}, E.emptyAll fuel (xs ++ ys) db = .ok db' →
    ∃ db1, E.emptyAll fuel xs db = .ok db1 ∧ E.emptyAll fuel ys db1 = .ok db'
  | [], ys, db, db', h => ⟨db, rfl, h⟩
  | x :: xs, ys, db, db', h => by
    simp only [List.cons_append, Engine.emptyAll] at h ⊢
    cases hx : E.emptyOne fuel db x with
    | error e => rw [hx] at h; cases h
    | ok db1 =>
      rw [hx] at h
      exact emptyAll_append (xs := xs) h

theorem emptyAll_quiet : ∀ {xs : List Emptied} {db db' : Db}, E.emptyAll fuel xs db = .ok db' → db.dirty = [] →
    (∀ t, .table t ∈ xs → db.rows t = [] ∨ ∀ tr ∈ E.triggers, tr.table = t → tr.event ≠ .delete) → db'.dirty = []
  | [], db, db', h, hd, _ => by
    simp only [Engine.emptyAll, Except.ok.injEq] at h
    exact h ▸ hd
  | x :: xs, db, db', h, hd, hq => by
    simp only [Engine.emptyAll] at h
    cases hx : E.emptyOne fuel db x with
    | error e => rw [hx] at h; cases h
    | ok db1 =>
      rw [hx] at h
      cases x with
      | markers =>
        simp only [Engine.emptyOne, Except.ok.injEq] at hx
        subst hx
        exact emptyAll_quiet h rfl fun t ht => hq t (List.mem_cons_of_mem _ ht)
      | table t0 =>
        refine emptyAll_quiet h ((exec_marks_nothing hx (hq t0 (List.mem_cons_self ..))).trans hd) fun t ht => ?_
        exact (hq t (List.mem_cons_of_mem _ ht)).imp ((exec_emptied hx).2 t) id

theorem emptyAll_keeps_marks : ∀ {xs : List Emptied} {db db' : Db}, E.emptyAll fuel xs db = .ok db' → .markers ∉ xs →
    ∀ m ∈ db.dirty, m ∈ db'.dirty
  | [], db, db', h, _, m, hm => by
    simp only [Engine.emptyAll, Except.ok.injEq] at h
    exact h ▸ hm
  | x :: xs, db, db', h, hn, m, hm => by
    simp only [Engine.emptyAll] at h
    cases hx : E.emptyOne fuel db x with
    | error e => rw [hx] at h; cases h
    | ok db1 =>
      rw [hx] at h
      cases x with
      | markers => exact absurd (List.mem_cons_self ..) hn
      | table t0 => exact emptyAll_keeps_marks h (fun hm => hn (List.mem_cons_of_mem _ hm)) m (exec_keeps_marks hx hm)

theorem emptyAll_cts {C : Nat → Prop} (hE : ∀ tr ∈ E.triggers, ∀ a ∈ tr.actions, ∀ ct, a.markCt = some ct → C ct) :
    ∀ {xs : List Emptied} {db db' : Db}, E.emptyAll fuel xs db = .ok db' → .markers ∈ xs ∨ (∀ m ∈ db.dirty, C m.ct) → ∀ m ∈ db'.dirty, C m.ct
  | [], db, db', h, hd => by
    simp only [Engine.emptyAll, Except.ok.injEq] at h
    subst h
    exact hd.resolve_left (by simp)
  | x :: xs, db, db', h, hd => by
    simp only [Engine.emptyAll] at h
    cases hx : E.emptyOne fuel db x with
    | error e => rw [hx] at h; cases h
    | ok db1 =>
      rw [hx] at h
      refine emptyAll_cts hE h ?_
      cases x with
      | markers =>
        simp only [Engine.emptyOne, Except.ok.injEq] at hx
        subst hx
        exact .inr fun m hm => nomatch hm
      | table t0 =>
        rcases hd with hd | hd
        · exact .inl (by simpa using hd)
        · refine .inr fun m hm => ?_
          rcases exec_cts hE hx m hm with h1 | h1
          · exact hd m h1
          · exact h1

theorem emptyAll_known {A : App} {D : List Denorm} (hP : Project A D) {xs : List Emptied} {db db' : Db} (h : A.engine.emptyAll A.fuel xs db = .ok db')
    (hd : .markers ∈ xs ∨ MarksKnown A db) : MarksKnown A db' :=
  emptyAll_cts (C := fun ct => ∃ om ∈ A.models, om.model.ct = ct) (fun tr htr a ha ct hct => by
    obtain ⟨dn, hdn, e⟩ := mark_cts hP.installed hP.this htr ha hct
    obtain ⟨om, hom, e'⟩ := hP.known dn hdn
    exact ⟨om, hom, by rw [← e, e']⟩) h hd

/-- On sqlite the statements come to an end: a trigger is not entered while it is active. -/
theorem emptyAll_finishes (hb : E.backend = .sqlite) : ∀ (xs : List Emptied) (db : Db), ∃ db' N, ∀ n, N ≤ n → E.emptyAll n xs db = .ok db'
  | [], db => ⟨db, 0, fun _ _ => rfl⟩
  | x :: xs, db => by
    have h1 : ∃ db1 N, ∀ n, N ≤ n → E.emptyOne n db x = .ok db1 := by
      cases x with
      | markers => exact ⟨_, 0, fun _ _ => rfl⟩
      | table t => exact sqlite_finishes hb (.delete t fun _ => true) db
    obtain ⟨db1, N, h1⟩ := h1
    obtain ⟨db2, N', h2⟩ := emptyAll_finishes hb xs db1
    refine ⟨db2, max N N', fun n hn => ?_⟩
    simp only [Engine.emptyAll, h1 n (by omega), h2 n (by omega)]

theorem truncateAll_empty : ∀ (xs : List Emptied) (db : Db),
    (∀ t, .table t ∈ xs ∨ db.rows t = [] → (xs.foldl Emptied.truncate db).rows t = []) ∧
      (.markers ∈ xs ∨ db.dirty = [] → (xs.foldl Emptied.truncate db).dirty = [])
  | [], db => by simp
  | x :: xs, db => by
    obtain ⟨h1, h2⟩ := truncateAll_empty xs (Emptied.truncate db x)
    simp only [List.foldl_cons]
    cases x with
    | markers =>
      refine ⟨fun t ht => h1 t ?_, fun _ => h2 (.inr rfl)⟩
      rcases ht with ht | ht
      · rcases List.mem_cons.1 ht with e | ht
        · cases e
        · exact .inl ht
      · exact .inr ht
    | table t0 =>
      refine ⟨fun t ht => h1 t ?_, fun hm => h2 ?_⟩
      · by_cases e : t = t0
        · exact .inr (by simp [Emptied.truncate, Db.setRows, e])
        · rcases ht with ht | ht
          · rcases List.mem_cons.1 ht with e' | ht
            · cases e'; exact absurd rfl e
            · exact .inl ht
          · exact .inr (by simp [Emptied.truncate, Db.setRows, e, ht])
      · rcases hm with hm | hm
        · rcases List.mem_cons.1 hm with e' | hm
          · cases e'
          · exact .inl hm
        · exact .inr hm
end

/-- A marker whose content type no model has makes flush() raise. -/
theorem flush_unknown {A : App} (hp : ∀ l, (A.arrange l).Perm l) {db : Db} (hm : db.dirty ≠ [])
    (hu : ∀ m ∈ db.dirty, ∀ om ∈ A.models, om.model.ct ≠ m.ct) (n : Nat) : A.flush (n + 1) db = .error .noModel := by
  have hmem : ∀ m, m ∈ A.snapshot db ↔ m ∈ db.dirty := fun m => mem_snapshot hp
  rw [App.flush, if_neg hm]
  simp only [App.pass]
  cases hs : A.snapshot db with
  | nil =>
    obtain ⟨m, hm'⟩ := List.exists_mem_of_ne_nil _ hm
    have := (hmem m).2 hm'
    rw [hs] at this; cases this
  | cons m ms =>
    have hmd := (hmem m).1 (by rw [hs]; exact List.mem_cons_self ..)
    have hf : A.models.find? (fun om => om.model.ct == m.ct) = none := by
      rw [List.find?_eq_none]
      intro om hom e
      exact hu m hmd om hom (by simpa using e)
    simp only [App.flushList, App.flushOne, App.saveObject, App.contentObject, hf]

end Denorm
