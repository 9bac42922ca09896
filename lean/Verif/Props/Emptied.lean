import Verif.Lemmas.Emptied
import Verif.Props.ContentTypes
import Verif.Props.Flush
/-!
# C95: emptying the database
-/
namespace Denorm

/-- Where tables are truncated, the command succeeds whatever the database contains: all tables are empty afterwards, and no marker is left. -/
theorem C95_truncated (E : Engine) (checked : Bool) (fuel : Nat) {order : List Emptied} (hall : .markers ∈ order) (db : Db) :
    ∃ db', E.emptyDatabase true checked fuel order db = .ok db' ∧ (∀ t, .table t ∈ order → db'.rows t = []) ∧ db'.dirty = [] :=
  ⟨_, rfl, fun t ht => (truncateAll_empty order db).1 t (.inl ht), (truncateAll_empty order db).2 (.inl hall)⟩

/-- Where rows are deleted, with triggers firing, whenever the command succeeds all tables are empty afterwards, whatever the triggers do; if
references are checked, no marker is left either. -/
theorem C95_emptied_partial {E : Engine} {checked : Bool} {fuel : Nat} {order : List Emptied} {db db' : Db}
    (h : E.emptyDatabase false checked fuel order db = .ok db') :
    (∀ t, .table t ∈ order → db'.rows t = []) ∧ (checked = true → db'.dirty = []) := by
  simp only [Engine.emptyDatabase, Bool.false_eq_true, if_false] at h
  cases hx : E.emptyAll fuel order db with
  | error e => rw [hx] at h; cases h
  | ok db1 =>
    rw [hx] at h
    simp only at h
    by_cases hc : (checked && !db1.dirty.isEmpty) = true
    · rw [if_pos hc] at h; cases h
    · rw [if_neg hc] at h
      cases h
      refine ⟨(emptyAll_empty hx).1, fun e => ?_⟩
      subst e
      simpa using hc

/-- Where rows are deleted, and the tables that are emptied after the markers have no rows or no triggers for deletions, the command succeeds, and no marker
is left. Assumed: each statement stays within the recursion limit. -/
theorem C95_last_partial {E : Engine} {checked : Bool} {fuel : Nat} {pre post : List Emptied} {db : Db}
    (hend : ∃ db1, E.emptyAll fuel (pre ++ .markers :: post) db = .ok db1)
    (hq : ∀ t, .table t ∈ post → db.rows t = [] ∨ ∀ tr ∈ E.triggers, tr.table = t → tr.event ≠ .delete) :
    ∃ db', E.emptyDatabase false checked fuel (pre ++ .markers :: post) db = .ok db' ∧
      (∀ t, .table t ∈ pre ++ .markers :: post → db'.rows t = []) ∧ db'.dirty = [] := by
  obtain ⟨db1, h⟩ := hend
  have hd : db1.dirty = [] := by
    obtain ⟨db2, h1, h2⟩ := emptyAll_append h
    simp only [Engine.emptyAll, Engine.emptyOne] at h2
    exact emptyAll_quiet h2 rfl fun t ht => (hq t ht).imp ((emptyAll_empty h1).2 t) id
  refine ⟨db1, ?_, (emptyAll_empty h).1, hd⟩
  simp [Engine.emptyDatabase, h, hd]

/-- The same for sqlite, whatever its triggers are: there is a recursion limit from which on the command succeeds. -/
theorem C95_sqlite_partial {E : Engine} (hb : E.backend = .sqlite) (checked : Bool) {pre post : List Emptied} {db : Db}
    (hq : ∀ t, .table t ∈ post → db.rows t = [] ∨ ∀ tr ∈ E.triggers, tr.table = t → tr.event ≠ .delete) :
    ∃ db' N, (∀ n, N ≤ n → E.emptyDatabase false checked n (pre ++ .markers :: post) db = .ok db') ∧
      (∀ t, .table t ∈ pre ++ .markers :: post → db'.rows t = []) ∧ db'.dirty = [] := by
  obtain ⟨db1, N, h⟩ := emptyAll_finishes hb (pre ++ .markers :: post) db
  obtain ⟨db', h1, h2, h3⟩ := C95_last_partial (checked := checked) ⟨db1, h N (Nat.le_refl _)⟩ hq
  have e : db' = db1 := by
    simp only [Engine.emptyDatabase, Bool.false_eq_true, if_false, h N (Nat.le_refl _)] at h1
    by_cases hc : (checked && !db1.dirty.isEmpty) = true
    · rw [if_pos hc] at h1; cases h1
    · rw [if_neg hc] at h1; cases h1; rfl
  subst e
  exact ⟨db', N, fun n hn => by simp [Engine.emptyDatabase, h n hn, h3], h2, h3⟩

section
variable {A : App} {D : List Denorm}

/-- If markers are left, and the content types have their numbers again, a flush() removes them without saving anything. -/
theorem C95_flush_partial (hp : ∀ l, (A.arrange l).Perm l) (hP : Project A D) {order : List Emptied} (hall : .markers ∈ order)
    (htables : ∀ om ∈ A.models, .table om.model.table ∈ order) {checked : Bool} {db db' : Db}
    (h : A.engine.emptyDatabase false checked A.fuel order db = .ok db') :
    ∃ db2, A.flush 1 db' = .ok (some db2) ∧ db2.dirty = [] ∧ ∀ t, .table t ∈ order → db2.rows t = [] := by
  have he := (C95_emptied_partial h).1
  have hx : A.engine.emptyAll A.fuel order db = .ok db' := by
    simp only [Engine.emptyDatabase, Bool.false_eq_true, if_false] at h
    cases hx : A.engine.emptyAll A.fuel order db with
    | error e => rw [hx] at h; cases h
    | ok db1 =>
      rw [hx] at h
      simp only at h
      by_cases hc : (checked && !db1.dirty.isEmpty) = true
      · rw [if_pos hc] at h; cases h
      · rw [if_neg hc] at h; cases h; rfl
  have hk : MarksKnown A db' := emptyAll_known hP hx (.inl hall)
  obtain ⟨db2, h1, h2, h3, _⟩ := C22_only_targetless (A := A) hp (db := db') (by
    intro m hm
    obtain ⟨om, hom, e⟩ := hk m hm
    cases hf : A.models.find? (fun om => om.model.ct == m.ct) with
    | none => exact absurd (by simpa using e) (List.find?_eq_none.1 hf om hom)
    | some om' =>
      refine ⟨om', hf, .inr ?_⟩
      rw [he _ (htables om' (List.mem_of_find?_eq_some hf))]
      simp)
  exact ⟨db2, h1, h2, fun t ht => by rw [h3]; exact he t ht⟩
end

section
variable {A : App} {D : List Denorm} {N : TableName → Nat}

/-- C95 is violated, in every project, where rows are deleted, references are checked (sqlite since Django 2.0) and the markers are emptied before a table whose
deletion marks anything: the command is refused. -/
theorem C95_violated_refused {t : TableName} {rest : List Emptied} (hrest : .markers ∉ rest) {db db1 : Db}
    (h : A.exec (.delete t fun _ => true) { db with dirty := [] } = .ok db1) (hm : db1.dirty ≠ []) (db' : Db) :
    A.engine.emptyDatabase false true A.fuel (.markers :: .table t :: rest) db ≠ .ok db' := by
  intro hc
  simp only [Engine.emptyDatabase, Bool.false_eq_true, if_false, Engine.emptyAll, Engine.emptyOne, exec_ok h] at hc
  cases hx : A.engine.emptyAll A.fuel rest db1 with
  | error e => rw [hx] at hc; cases hc
  | ok db2 =>
    rw [hx] at hc
    obtain ⟨m, hmem⟩ := List.exists_mem_of_ne_nil _ hm
    have := emptyAll_keeps_marks hx hrest m hmem
    have hne : db2.dirty.isEmpty = false := by cases hd : db2.dirty <;> simp [hd] at this ⊢
    simp [hne] at hc

/-- C95 is violated, in every project, where rows are deleted, references are not checked (sqlite before Django 2.0, MySQL), the markers are emptied before a table
whose deletion marks anything and the new content types have other numbers: after the command flush() raises, although the database is empty. -/
theorem C95_violated_raises (hE : Installed A.engine D) (hthis : ∀ dn ∈ D, ∀ d ∈ dn.deps, d.this = dn.model)
    (hnew : ∀ om ∈ A.models, ∀ dn ∈ D, N om.model.table ≠ dn.model.ct) (hp : ∀ l, (A.arrange l).Perm l)
    {t : TableName} {rest : List Emptied} (hrest : .markers ∉ rest) {db db1 db' : Db}
    (h : A.exec (.delete t fun _ => true) { db with dirty := [] } = .ok db1) (hm : db1.dirty ≠ [])
    (hc : A.engine.emptyDatabase false false A.fuel (.markers :: .table t :: rest) db = .ok db') (n : Nat) :
    (A.numbered N).flush (n + 1) db' = .error .noModel := by
  simp only [Engine.emptyDatabase, Bool.false_eq_true, if_false, Bool.false_and] at hc
  cases hx : A.engine.emptyAll A.fuel (.markers :: .table t :: rest) db with
  | error e => rw [hx] at hc; cases hc
  | ok db2 =>
    rw [hx] at hc
    cases hc
    have hcts := emptyAll_cts (C := fun ct => ∃ dn ∈ D, dn.model.ct = ct) (fun tr htr a ha ct hct => mark_cts hE hthis htr ha hct) hx (.inl (List.mem_cons_self ..))
    simp only [Engine.emptyAll, Engine.emptyOne, exec_ok h] at hx
    obtain ⟨m0, hmem0⟩ := List.exists_mem_of_ne_nil _ hm
    have hne : db'.dirty ≠ [] := List.ne_nil_of_mem (emptyAll_keeps_marks hx hrest m0 hmem0)
    refine flush_unknown (A := A.numbered N) hp hne (fun m hm' om hom e => ?_) n
    obtain ⟨dn, hdn, h1⟩ := hcts m hm'
    obtain ⟨om0, h0, rfl⟩ := List.mem_map.1 hom
    exact hnew om0 h0 dn hdn (e.trans h1.symm)
end

namespace Chain
set_option maxRecDepth 100000

/-- The markers are emptied last, or first. -/
def lastOrder : List Emptied := [.table "blog", .table "entry", .table "comment", .markers]
def firstOrder : List Emptied := [.markers, .table "blog", .table "entry", .table "comment"]

theorem ends (b : Backend) (order : List Emptied) (P : Db → Prop) [DecidablePred P]
    (hx : (match (app b).engine.emptyAll (app b).fuel order db with | .ok d => decide (P d) | _ => false) = true) :
    ∃ d, (app b).engine.emptyAll (app b).fuel order db = .ok d ∧ P d := by
  cases h : (app b).engine.emptyAll (app b).fuel order db with
  | error e => rw [h] at hx; cases hx
  | ok d => rw [h] at hx; exact ⟨d, rfl, of_decide_eq_true hx⟩

/-- `C95_truncated` -/
example (b : Backend) : ∃ db', (engine b).emptyDatabase true true 100 firstOrder db = .ok db' ∧ (∀ t, .table t ∈ firstOrder → db'.rows t = []) ∧ db'.dirty = [] :=
  C95_truncated _ _ _ (by decide) _

/-- `C95_last_partial`, `C95_emptied_partial`: the blog, its entry and the comment go first. -/
example (b : Backend) (c : Bool) : ∃ db', (app b).engine.emptyDatabase false c (app b).fuel lastOrder db = .ok db' ∧ (∀ t, .table t ∈ lastOrder → db'.rows t = []) ∧
    db'.dirty = [] ∧ db.rows "blog" ≠ [] ∧ db.rows "entry" ≠ [] := by
  obtain ⟨d, h, _⟩ := ends b lastOrder (fun _ => True) (by cases b <;> decide +kernel)
  obtain ⟨db', h1, h2, h3⟩ := C95_last_partial (checked := c) (pre := [.table "blog", .table "entry", .table "comment"]) (post := []) ⟨d, h⟩ (fun t ht => nomatch ht)
  have := C95_emptied_partial h1
  exact ⟨db', h1, h2, h3, by decide, by decide⟩

/-- `C95_sqlite_partial` -/
example : ∃ db' N, (∀ n, N ≤ n → (engine .sqlite).emptyDatabase false true n lastOrder db = .ok db') ∧ (∀ t, .table t ∈ lastOrder → db'.rows t = []) ∧ db'.dirty = [] :=
  C95_sqlite_partial rfl true (pre := [.table "blog", .table "entry", .table "comment"]) (post := []) (fun t ht => nomatch ht)

theorem deletion_marks (b : Backend) : ∃ d, (app b).exec (.delete "blog" fun _ => true) { db with dirty := [] } = .ok d ∧ d.dirty ≠ [] := by
  have hx : (match (app b).exec (.delete "blog" fun _ => true) { db with dirty := [] } with | .ok d => decide (d.dirty ≠ []) | _ => false) = true := by
    cases b <;> decide +kernel
  cases h : (app b).exec (.delete "blog" fun _ => true) { db with dirty := [] } with
  | error e => rw [h] at hx; cases hx
  | ok d => rw [h] at hx; exact ⟨d, rfl, of_decide_eq_true hx⟩

/-- `C95_violated_refused`: the blog is deleted after the markers and before its entry, which gets marked. -/
example (b : Backend) (db' : Db) : (app b).engine.emptyDatabase false true (app b).fuel firstOrder db ≠ .ok db' := by
  obtain ⟨d, h, hm⟩ := deletion_marks b
  exact C95_violated_refused (by decide) h hm db'

/-- `C95_violated_raises`, and, with the old numbers, `C95_flush_partial`. -/
example (b : Backend) : ∃ db', (app b).engine.emptyDatabase false false (app b).fuel firstOrder db = .ok db' ∧ db'.dirty ≠ [] ∧
    (∀ n, ((app b).numbered next).flush (n + 1) db' = .error .noModel) ∧
    ∃ db2, (app b).flush 1 db' = .ok (some db2) ∧ db2.dirty = [] ∧ ∀ t, .table t ∈ firstOrder → db2.rows t = [] := by
  obtain ⟨d, h, hm⟩ := deletion_marks b
  obtain ⟨db', hx, hne⟩ := ends b firstOrder (fun d => d.dirty ≠ []) (by cases b <;> decide +kernel)
  have hc : (app b).engine.emptyDatabase false false (app b).fuel firstOrder db = .ok db' := by simp [Engine.emptyDatabase, hx]
  exact ⟨db', hc, hne, C95_violated_raises (A := app b) (D := decls) rfl (by decide) (by cases b <;> decide) (fun _ => .refl _) (by decide) h hm hc,
    C95_flush_partial (A := app b) (D := decls) (fun _ => .refl _) (project b _) (by decide) (by cases b <;> decide) hc⟩

end Chain
end Denorm
