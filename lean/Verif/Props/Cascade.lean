import Verif.Lemmas.Cascade
import Verif.Props.Upsert
/-!
# Foreign keys with ON DELETE CASCADE or SET NULL in the database (C91)
-/
namespace Denorm

/-- **C91, partial.** On sqlite and PostgreSQL, whatever the foreign keys of the database delete and clear, over any number of levels: after
any history every instance whose `@denormalized` value is out of date has a dirty marker, if that was so before. Missing: MySQL, for which
it is false (`C91_violated`), and deletions from the other table of a many-to-many relation (see `C91_references_partial`). -/
theorem C91_marked_partial {E : Engine} {D : List Denorm} {cb : Callback} (hb : E.backend ≠ .mysql) (hE : Installed E D)
    (hD : WellDeclared E.backend D cb) (hN : NoReentry E) {fs : List ForeignRef} (hf : RefsOk cb fs) {fuel : Nat} {ss : List Stmt} {db0 : Db}
    (hL : LegalRefs E cb fs fuel ss db0) (hK : KeysOk cb db0)
    (hS : ∀ r ∈ db0.rows cb.model.table, r cb.field = cb.value db0 r ∨ Marked cb.model db0 r) :
    ∀ r ∈ (E.runRefs fs fuel ss db0).rows cb.model.table,
      r cb.field ≠ cb.value (E.runRefs fs fuel ss db0) r → Marked cb.model (E.runRefs fs fuel ss db0) r := by
  intro r hr hne
  exact ((track_runRefs hb (tracks_of_installed hE hD) hN (freshTracked cb) hf ss db0 hL hK fun r hr => (hS r hr).symm).2 r hr).resolve_right hne

/-- **C91, partial.** flush() after such a history leaves nothing stale (for fields as in C01). -/
theorem C91_flush_partial {A : App} {D : List Denorm} {om : OrmModel} {cb : Callback} (hb : A.engine.backend ≠ .mysql) {fs : List ForeignRef}
    (hf : RefsOk cb fs) {fuel : Nat} {ss : List Stmt} {db0 db' : Db}
    (hL : LegalRefs A.engine cb fs fuel ss db0) (hK : KeysOk cb db0)
    (hS : ∀ r ∈ db0.rows cb.model.table, r cb.field = cb.value db0 r ∨ Marked cb.model db0 r)
    (hF : Flushable A D om cb (A.engine.runRefs fs fuel ss db0)) (hu : KeysUnique A (A.engine.runRefs fs fuel ss db0))
    {n : Nat} (h : A.flush n (A.engine.runRefs fs fuel ss db0) = .ok (some db')) :
    db'.dirty = [] ∧ ∀ r ∈ db'.rows cb.model.table, r cb.field = cb.value db' r := by
  obtain ⟨hK', hg⟩ := track_runRefs hb (tracks_of_installed hF.installed hF.declared) hF.noReentry (freshTracked cb) hf ss db0 hL hK
    (fun r hr => (hS r hr).symm)
  exact C01_flush_partial hF hu hK' (staleMarked_iff.2 hg) h

/-- **C91, partial.** On sqlite and PostgreSQL a SumField holds the sum over the selected rows after such a history, if the summed column
holds integers. Missing: MySQL (false), NULLs in the summed column (C12). -/
theorem C91_sum_partial {E : Engine} {D : List Denorm} {a : AggDenorm} {S : List (TableName × Col)} (hb : E.backend ≠ .mysql)
    (hE : Installed E D) (hD : AggDeclared E.backend D a) (hN : NoReentry E) (hS : IntClosed E.backend D S)
    (hm : (a.model.table, a.fieldname) ∈ S) {fs : List ForeignRef} (hr : AggRefsOk a S fs) {f : Col} (hf : a.agg = .sum f) (fuel : Nat) :
    ∀ (ss : List Stmt) (db : Db), SumRefs E a S fs fuel ss db → (∀ t, ∀ r ∈ db.rows t, IntRow S t r) → AggOk a db →
    ∀ r ∈ (E.runRefs fs fuel ss db).rows a.model.table, r a.fieldname =
      .int ((((E.runRefs fs fuel ss db).rows a.related.table).filter fun o => decide (a.Selects (r a.model.pk) o)).map fun o => (o f).toInt).sum
  | [], db, _, _, hok => by
    intro r hr
    rw [hok r hr, AggDenorm.total, hf]
    rfl
  | s :: ss, db, hL, hI, hok => by
    simp only [SumRefs] at hL
    simp only [Engine.runRefs]
    cases he : E.execRefs fs fuel s db with
    | ok db' =>
      rw [he] at hL
      obtain ⟨h1, h2⟩ := agg_execRefs hb hE hD hN hS hm hr hL.1 hI hok he
      exact C91_sum_partial hb hE hD hN hS hm hr hf fuel ss db' hL.2 h2 h1
    | error e =>
      rw [he] at hL
      exact C91_sum_partial hb hE hD hN hS hm hr hf fuel ss db hL.2 hI hok

/-- **C91, partial.** On sqlite and PostgreSQL a CountField, with any filter, holds the number of selected rows after such a history, without
flush(). Missing: MySQL (false, `C91_violated`). -/
theorem C91_count_partial {E : Engine} {D : List Denorm} {a : AggDenorm} (hb : E.backend ≠ .mysql) (hE : Installed E D)
    (hD : AggDeclared E.backend D a) (hN : NoReentry E) (hc : a.agg = .count) {fs : List ForeignRef}
    (hr : ∀ f ∈ fs, f.action = .setNull → f.table = a.model.table → f.col ≠ a.model.pk ∧ f.col ≠ a.fieldname) (fuel : Nat) :
    ∀ (ss : List Stmt) (db : Db), CountRefs E a fs fuel ss db → AggOk a db →
    ∀ r ∈ (E.runRefs fs fuel ss db).rows a.model.table, r a.fieldname =
      .int (((E.runRefs fs fuel ss db).rows a.related.table).filter fun o => decide (a.Selects (r a.model.pk) o)).length
  | [], db, _, hok => by
    intro r hr
    rw [hok r hr, AggDenorm.total, hc]
    rfl
  | s :: ss, db, hL, hok => by
    simp only [CountRefs] at hL
    simp only [Engine.runRefs]
    cases he : E.execRefs fs fuel s db with
    | ok db' =>
      rw [he] at hL
      have hr' : AggRefsOk a [(a.model.table, a.fieldname)] fs := by
        intro f hf ha
        refine ⟨fun h => ?_, hr f hf ha⟩
        simp only [List.mem_singleton, Prod.mk.injEq] at h
        exact (hr f hf ha h.1).2 h.2
      exact C91_count_partial hb hE hD hN hc hr fuel ss db' hL.2
        (agg_execRefs hb hE hD hN (count_closed hD hc) (by simp) hr' (countLegal_agg hL.1) (aggOk_ints hok) hok he).1
    | error e =>
      rw [he] at hL
      exact C91_count_partial hb hE hD hN hc hr fuel ss db hL.2 hok

/-- **C91**, every backend: where no such foreign key refers to the table of the statement, it does what it does without foreign keys, so that
C02-C05, C10-C12 and C37 say what happens. -/
theorem C91_unreferenced_partial {E : Engine} {fs : List ForeignRef} {fuel : Nat} {s : Stmt} (hf : ∀ f ∈ fs, f.target ≠ s.table) {db db' : Db}
    (he : E.execRefs fs fuel s db = .ok db') : ∃ n, E.exec n s db = .ok db' :=
  execRefs_plain hf he

/-! ## Crates again
Another program keeps the kinds of things and their families in the same database. -/
namespace Crates
set_option maxRecDepth 100000

/-- `thing.kind_id REFERENCES kind ON DELETE CASCADE`, `kind.family_id REFERENCES family ON DELETE CASCADE`,
`thing.crate_id REFERENCES crate ON DELETE SET NULL` -/
def refs : List ForeignRef :=
  [⟨"thing", "kind_id", "kind", "id", .cascade⟩, ⟨"kind", "family_id", "family", "id", .cascade⟩, ⟨"thing", "crate_id", "crate", "id", .setNull⟩]

/-- Crate 1 holds a cup and a pan, crate 2 a pot; pans and pots are of family 1. -/
def kindDb : Db := ⟨fun t =>
  if t = "crate" then [crow 1 7 2 7, crow 2 5 1 5]
  else if t = "thing" then [(trow 1 1 3).set "kind_id" (.int 1), (trow 2 1 4).set "kind_id" (.int 2), (trow 3 2 5).set "kind_id" (.int 3)]
  else if t = "kind" then [Demo.row [("id", .int 1), ("family_id", .int 2)], Demo.row [("id", .int 2), ("family_id", .int 1)],
    Demo.row [("id", .int 3), ("family_id", .int 1)]]
  else if t = "family" then [Demo.row [("id", .int 1)], Demo.row [("id", .int 2)]]
  else [], [], 0⟩

/-- `DELETE FROM family WHERE id = 1` -/
def dropFamily : Stmt := .delete "family" fun r => decide (r "id" = .int 1)

/-- `DELETE FROM crate WHERE id = 1`: the cup is in no crate any more. -/
def dropCrate : Stmt := .delete "crate" fun r => decide (r "id" = .int 1)

theorem refs_ok : RefsOk load refs := by
  intro f hf
  simp only [refs, List.mem_cons, List.not_mem_nil, or_false] at hf
  rcases hf with rfl | rfl | rfl
  · intro d hd _
    simp only [load, List.mem_singleton] at hd
    subst hd; rfl
  · intro d hd _
    simp only [load, List.mem_singleton] at hd
    subst hd; rfl
  · show ∀ p ∈ load.pks, p.1 = "thing" → p.2 ≠ "crate_id"
    decide

theorem refs_legal (b : Backend) : LegalRefs (engine b) load refs 100 [dropFamily, dropCrate] kindDb := by
  have h : ∀ t w db, LegalStmt (engine b) load db (.delete t w) ∧
      ∀ t' w', Stmt.delete t w = .delete t' w' → ∀ d ∈ load.deps, d.dep.other.table = t' → d.dep.m2mTable = none := by
    intro t w db
    have hn : ∀ d ∈ load.deps, d.dep.m2mTable = none := by
      intro d hd
      simp only [load, List.mem_singleton] at hd
      subst hd; rfl
    exact ⟨fun d hd _ hm => absurd (hn d hd) hm, fun _ _ _ d hd _ => hn d hd⟩
  refine ⟨h _ _ _, ?_⟩
  cases (engine b).execRefs refs 100 dropFamily kindDb with
  | ok db' => refine ⟨h _ _ _, ?_⟩; cases (engine b).execRefs refs 100 dropCrate db' <;> trivial
  | error e => refine ⟨h _ _ _, ?_⟩; cases (engine b).execRefs refs 100 dropCrate kindDb <;> trivial

/-- `C91_flush_partial`: the family takes pan and pot with it, and crate 2 is empty after flush(). -/
example (b : Backend) (hb : b ≠ .mysql) :
    ∃ db', (app b).flush 2 ((engine b).runRefs refs 100 [dropFamily, dropCrate] kindDb) = .ok (some db') ∧
      (db'.rows "crate").map (fun r => r "load") = [.int 0] ∧ (db'.rows "thing").map (fun r => (r "id", r "crate_id")) = [(.int 1, .null)] ∧
      ∀ r ∈ db'.rows "crate", r "load" = load.value db' r := by
  obtain ⟨db', h, h1⟩ : ∃ db', (app b).flush 2 ((engine b).runRefs refs 100 [dropFamily, dropCrate] kindDb) = .ok (some db') ∧
      ((db'.rows "crate").map (fun r => r "load") = [.int 0] ∧ (db'.rows "thing").map (fun r => (r "id", r "crate_id")) = [(.int 1, .null)]) :=
    flush_of (by cases b <;> first | exact absurd rfl hb | decide +kernel)
  have hu : KeysUnique (app b) ((engine b).runRefs refs 100 [dropFamily, dropCrate] kindDb) := by unfold KeysUnique; cases b <;> decide +kernel
  exact ⟨db', h, h1.1, h1.2, (C91_flush_partial (A := app b) hb refs_ok (refs_legal b) (by unfold KeysOk; decide) (by decide)
    (flushable_load b _) hu h).2⟩

/-- `C91_marked_partial`: after the family has gone, both crates are out of date, and marked. -/
example (b : Backend) (hb : b ≠ .mysql) : LegalRefs (engine b) load refs 100 [dropFamily, dropCrate] kindDb ∧
    (∀ r ∈ ((engine b).runRefs refs 100 [dropFamily] kindDb).rows "crate", ¬ load.Fresh ((engine b).runRefs refs 100 [dropFamily] kindDb) r ∧
      Marked crate ((engine b).runRefs refs 100 [dropFamily] kindDb) r) :=
  ⟨refs_legal b, by cases b <;> first | exact absurd rfl hb | decide +kernel⟩

theorem size_refs (b : Backend) : CountRefs (engine b) size refs 100 [dropFamily] kindDb := by
  refine ⟨trivial, ?_⟩
  cases (engine b).execRefs refs 100 dropFamily kindDb <;> trivial

theorem weight_refs (b : Backend) : SumRefs (engine b) weight S refs 100 [dropFamily] kindDb := by
  refine ⟨trivial, ?_⟩
  cases (engine b).execRefs refs 100 dropFamily kindDb <;> trivial

/-- `C91_count_partial` and `C91_sum_partial`: crate 1 has lost the pan, crate 2 the pot. -/
example (b : Backend) (hb : b ≠ .mysql) : AggOk size kindDb ∧ AggOk weight kindDb ∧ CountRefs (engine b) size refs 100 [dropFamily] kindDb ∧
    SumRefs (engine b) weight S refs 100 [dropFamily] kindDb ∧ AggRefsOk weight S refs ∧
    (((engine b).runRefs refs 100 [dropFamily] kindDb).rows "crate").map (fun r => (r "size", r "weight")) =
      [(.int 1, .int 3), (.int 0, .int 0)] :=
  ⟨by unfold AggOk; decide, by unfold AggOk; decide, size_refs b, weight_refs b, by unfold AggRefsOk; decide,
    by cases b <;> first | exact absurd rfl hb | decide +kernel⟩

/-- `C91_unreferenced_partial`: things may be deleted by hand, on every backend. -/
example (b : Backend) : (∀ f ∈ refs, f.target ≠ (Stmt.delete "thing" fun r => decide (r "id" = .int 2)).table) ∧
    ∃ db', (engine b).execRefs refs 100 (.delete "thing" fun r => decide (r "id" = .int 2)) kindDb = .ok db' ∧
      (db'.rows "crate").map (fun r => r "size") = [.int 1, .int 1] :=
  ⟨by decide, ok_of (by cases b <;> decide +kernel)⟩

/-- On MySQL: the state after the DELETE, and after flush(). -/
def swept : Option (Db × Db) :=
  match (engine .mysql).execRefs refs 100 dropFamily kindDb with
  | .ok db1 => match (app .mysql).flush 2 db1 with
    | .ok (some db') => some (db1, db')
    | _ => none
  | .error _ => none

theorem swept_facts : ∃ db1 db', (engine .mysql).execRefs refs 100 dropFamily kindDb = .ok db1 ∧ (app .mysql).flush 2 db1 = .ok (some db') ∧
    (∀ r ∈ db1.rows "crate", r "load" ≠ load.value db1 r ∧ ¬ Marked crate db1 r) ∧
    (∀ r ∈ db'.rows "crate", r "load" ≠ load.value db' r) ∧ (∀ r ∈ db'.rows "crate", r "size" ≠ .int (size.total db' (r "id"))) ∧
    (db'.rows "crate").map (fun r => r "id") = [.int 1, .int 2] := by
  have h : (match swept with
    | some (db1, db') => decide ((∀ r ∈ db1.rows "crate", r "load" ≠ load.value db1 r ∧ ¬ Marked crate db1 r) ∧
        (∀ r ∈ db'.rows "crate", r "load" ≠ load.value db' r) ∧ (∀ r ∈ db'.rows "crate", r "size" ≠ .int (size.total db' (r "id"))) ∧
        (db'.rows "crate").map (fun r => r "id") = [.int 1, .int 2])
    | none => false) = true := by decide +kernel
  unfold swept at h
  cases h1 : (engine .mysql).execRefs refs 100 dropFamily kindDb with
  | error e => rw [h1] at h; cases h
  | ok db1 =>
    rw [h1] at h
    simp only at h
    cases h2 : (app .mysql).flush 2 db1 with
    | error e => rw [h2] at h; cases h
    | ok o =>
      cases o with
      | none => rw [h2] at h; cases h
      | some db' =>
        rw [h2] at h
        simp only [decide_eq_true_eq] at h
        exact ⟨db1, db', rfl, h2, h⟩

/-- **C91 is violated** on MySQL: the things that go with the family go without a trigger. Every crate that held one keeps its load and its
count, has no marker, and flush() changes nothing about it. The hypotheses of `C91_flush_partial` and `C91_count_partial`, other than
the one about the backend, are met. -/
theorem C91_violated : RefsOk load refs ∧ LegalRefs (engine .mysql) load refs 100 [dropFamily, dropCrate] kindDb ∧
    CountRefs (engine .mysql) size refs 100 [dropFamily] kindDb ∧ AggOk size kindDb ∧
    kindDb.dirty = [] ∧ (∀ r ∈ kindDb.rows "crate", r "load" = load.value kindDb r) ∧
    ∃ db1 db', (engine .mysql).execRefs refs 100 dropFamily kindDb = .ok db1 ∧ (app .mysql).flush 2 db1 = .ok (some db') ∧
      (∀ r ∈ db1.rows "crate", r "load" ≠ load.value db1 r ∧ ¬ Marked crate db1 r) ∧
      (∀ r ∈ db'.rows "crate", r "load" ≠ load.value db' r) ∧ (∀ r ∈ db'.rows "crate", r "size" ≠ .int (size.total db' (r "id"))) ∧
      (db'.rows "crate").map (fun r => r "id") = [.int 1, .int 2] :=
  ⟨refs_ok, refs_legal .mysql, size_refs .mysql, by unfold AggOk; decide, rfl, by decide, swept_facts⟩

end Crates

end Denorm
