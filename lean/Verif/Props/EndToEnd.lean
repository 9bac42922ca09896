import Verif.Lemmas.Run
import Verif.Props.SqlText
import Verif.Props.Flush
import Verif.Props.Aggregates
import Verif.DemoChain
/-!
# The database that has read the texts of denorm_init (C59)
-/
namespace Denorm

section
variable {D : Dialect} {decls : List Denorm} {hash : String → String} {draws : Nat → String}

/-- C59. Under the conditions of C47 the database can read all texts that `denorm_init` sends; and a database that runs what it has read
executes every statement, in every state, with the effects that the declarations ask for. -/
theorem C59_texts_partial (hD : DialectOk D) (hw : ∀ d ∈ decls, d.Writable D) (hf : D.backend ≠ .mysql → WatchesColumns D.backend decls)
    (hp : NamePieces hash draws) : ∃ rs, readTexts D (sentTexts D.backend hash draws decls) = some rs ∧
      ∀ rand fuel st db, (⟨D.backend, rs, rand⟩ : TextDb).exec fuel st db =
        (⟨D.backend, installedTriggers D.backend decls, rand⟩ : Engine).exec fuel st db := by
  obtain ⟨hl, hr⟩ := C47_text_partial hD hw hf hp
  obtain ⟨rs, h1, h2⟩ := mapM_each (f := fun t => parseTrigger D (lex D.backend t)) (R := ReadTrigger.Means D.backend)
    (as := sentTexts D.backend hash draws decls)
    (cs := Catalog.denormTriggers (expectedTriggers D.backend hash draws 0 (buildTriggerset D.backend decls))) (by rw [expected_length, hl])
    (by
      intro i text tr ht htr
      rw [expected_get, Nat.zero_add] at htr
      cases hi : (buildTriggerset D.backend decls)[i]? with
      | none => rw [hi] at htr; cases htr
      | some p =>
        rw [hi, Option.map_some, Option.some.injEq] at htr
        obtain ⟨text', r, h1, h2, h3⟩ := hr i p.1 p.2 hi
        rw [ht, Option.some.injEq] at h1
        exact ⟨r, h1 ▸ h2, htr ▸ h3⟩)
  exact ⟨rs, h1, fun rand fuel st db => (exec_text h2 fuel st db).trans (exec_expected fuel st db)⟩

/-- C59, for `@denormalized` fields: from the declarations over the texts to the rows. Whatever legal history of statements is executed by the
database that has read the texts, every instance that is not marked is up to date. -/
theorem C59_marked_partial (hD : DialectOk D) (hw : ∀ d ∈ decls, d.Writable D) (hf : D.backend ≠ .mysql → WatchesColumns D.backend decls)
    (hp : NamePieces hash draws) {rand : Nat → Int} {cb : Callback} (hc : WellDeclared D.backend decls cb)
    (hN : NoReentry ⟨D.backend, installedTriggers D.backend decls, rand⟩) {rs : List ReadTrigger}
    (hr : readTexts D (sentTexts D.backend hash draws decls) = some rs) {fuel : Nat} {ss : List Stmt} {db : Db}
    (hL : LegalRun ⟨D.backend, installedTriggers D.backend decls, rand⟩ cb fuel ss db) (hK : KeysOk cb db)
    (hS : ∀ r ∈ db.rows cb.model.table, r cb.field = cb.value db r ∨ Marked cb.model db r) :
    ∀ r ∈ ((⟨D.backend, rs, rand⟩ : TextDb).run fuel ss db).rows cb.model.table,
      r cb.field = cb.value ((⟨D.backend, rs, rand⟩ : TextDb).run fuel ss db) r ∨ Marked cb.model ((⟨D.backend, rs, rand⟩ : TextDb).run fuel ss db) r := by
  obtain ⟨rs', h1, h2⟩ := C59_texts_partial hD hw hf hp
  rw [hr, Option.some.injEq] at h1
  subst h1
  rw [run_text (E := ⟨D.backend, installedTriggers D.backend decls, rand⟩) (fun s db => h2 rand fuel s db)]
  exact fun r hr => ((track_run (tracks_of_installed (E := ⟨D.backend, installedTriggers D.backend decls, rand⟩) rfl hc) hN (freshTracked cb) ss db hL hK
    (fun r hr => (hS r hr).symm)).2 r hr).symm

/-- C59, for a CountField with `filter=` and `exclude=`: after every history on the database that has read the texts, it holds the number of related
rows that are selected. -/
theorem C59_count_partial (hD : DialectOk D) (hw : ∀ d ∈ decls, d.Writable D) (hf : D.backend ≠ .mysql → WatchesColumns D.backend decls)
    (hp : NamePieces hash draws) {rand : Nat → Int} {a : AggDenorm} (hd : AggDeclared D.backend decls a) (hc : a.agg = .count)
    (hN : NoReentry ⟨D.backend, installedTriggers D.backend decls, rand⟩) {rs : List ReadTrigger}
    (hr : readTexts D (sentTexts D.backend hash draws decls) = some rs) {fuel : Nat} {ss : List Stmt} {db : Db}
    (hL : CountLegalRun ⟨D.backend, installedTriggers D.backend decls, rand⟩ a fuel ss db) (hok : AggOk a db) :
    ∀ r ∈ ((⟨D.backend, rs, rand⟩ : TextDb).run fuel ss db).rows a.model.table, r a.fieldname =
      .int ((((⟨D.backend, rs, rand⟩ : TextDb).run fuel ss db).rows a.related.table).filter fun o => decide (a.Selects (r a.model.pk) o)).length := by
  obtain ⟨rs', h1, h2⟩ := C59_texts_partial hD hw hf hp
  rw [hr, Option.some.injEq] at h1
  subst h1
  rw [run_text (E := ⟨D.backend, installedTriggers D.backend decls, rand⟩) (fun s db => h2 rand fuel s db)]
  exact C11_filtered_count (E := ⟨D.backend, installedTriggers D.backend decls, rand⟩) rfl hd hN hc fuel ss db hL hok

end

/-! ## Cases -/

namespace Chain
open Texts (dialect dialect_ok hash draws pieces)
set_option maxRecDepth 100000

theorem chain_writable (b : Backend) : ∀ d ∈ decls, d.Writable (dialect b) := by cases b <;> decide +kernel

theorem chain_watches (b : Backend) : WatchesColumns b decls := by cases b <;> decide +kernel

/-- C59 applies to the chain of dependencies: blog 1 is renamed, entry 1 of it is marked by the database that has read the texts. -/
example (b : Backend) : ∃ rs, readTexts (dialect b) (sentTexts b hash draws decls) = some rs ∧
    ∃ db', (⟨b, rs, fun _ => 0⟩ : TextDb).exec 100 (.update "blog" (fun _ => true) fun _ r => r.set "title" (.text "Z")) db = .ok db' ∧
      (∃ r ∈ db'.rows "entry", r "label" ≠ label.value db' r) ∧ db'.dirty = [⟨12, .int 1⟩] := by
  obtain ⟨rs, h1, h2⟩ := C59_texts_partial (D := dialect b) (dialect_ok b) (chain_writable b) (fun _ => chain_watches b) pieces
  refine ⟨rs, h1, ?_⟩
  have h3 : ∃ db', (engine b).exec 100 (.update "blog" (fun _ => true) fun _ r => r.set "title" (.text "Z")) db = .ok db' ∧
      (∃ r ∈ db'.rows "entry", r "label" ≠ label.value db' r) ∧ db'.dirty = [⟨12, .int 1⟩] := ok_of (by cases b <;> decide +kernel)
  obtain ⟨db', h4, h5⟩ := h3
  exact ⟨db', (h2 _ _ _ _).trans h4, h5⟩

/-- The hypotheses of the theorem about histories. -/
example (b : Backend) (id : Int) (t : String) : DialectOk (dialect b) ∧ (∀ d ∈ decls, d.Writable (dialect b)) ∧ WatchesColumns b decls ∧
    NamePieces hash draws ∧ WellDeclared b decls label ∧ NoReentry ⟨b, installedTriggers b decls, fun _ => 0⟩ ∧ KeysOk label db ∧
    (∀ r ∈ db.rows label.model.table, r label.field = label.value db r ∨ Marked label.model db r) ∧
    LegalRun (engine b) label 100 [.update "blog" (fun r => decide (r "id" = .int id)) fun _ r => r.set "title" (.text t)] db := by
  refine ⟨dialect_ok b, chain_writable b, chain_watches b, pieces, wd_label b, noReentry b, by unfold KeysOk; decide, by decide, ?_, ?_⟩
  · exact legal_set (by decide) (by decide)
  · split <;> trivial

end Chain

namespace Texts
set_option maxRecDepth 100000

/-- C59 applies to a CountField with `filter=` and `exclude=`, on PostgreSQL and MySQL. -/
example (b : Backend) (hb : b ≠ .sqlite) : DialectOk (dialect b) ∧ (∀ d ∈ [Denorm.aggregate Demo.goodCount], d.Writable (dialect b)) ∧
    WatchesColumns b [.aggregate Demo.goodCount] ∧ NamePieces hash draws ∧ AggDeclared b [.aggregate Demo.goodCount] Demo.goodCount ∧
    NoReentry ⟨b, installedTriggers b [.aggregate Demo.goodCount], fun _ => 0⟩ ∧ AggOk Demo.goodCount Demo.goodDb ∧
    CountLegalRun ⟨b, installedTriggers b [.aggregate Demo.goodCount], fun _ => 0⟩ Demo.goodCount 100 Demo.goodHistory Demo.goodDb := by
  have upd : ∀ db w σ, CountLegal Demo.goodCount db (.update "post" w σ) := fun _ _ _ h => absurd h (by decide)
  refine ⟨dialect_ok b, ?_, ?_, pieces, Demo.ad_good b, Demo.good_noReentry b, by unfold AggOk; decide, ?_⟩
  · cases b
    · exact absurd rfl hb
    · decide +kernel
    · decide +kernel
  · cases b <;> decide +kernel
  · cases b <;> exact ⟨upd _ _ _, upd _ _ _, upd _ _ _, trivial⟩

/-- The UPDATE trigger of `label`. -/
def updateTrigger (t : TableName) : PyTrigger := mkTrigger (.model (entry t)) .update [.markValues 3 .new "id" true] 3 []

/-- `label` as a function of `title`, on a table whose name has an upper-case letter. -/
def upperLabel : Callback := { model := entry "Entry", field := "label", own := ["title"], fn := fun vs _ => vs.headD .null, deps := [] }

theorem readTexts_two {D : Dialect} {s t : String} {r r' : ReadTrigger} (h : parseTrigger D (lex D.backend s) = some r)
    (h' : parseTrigger D (lex D.backend t) = some r') : readTexts D [s, t] = some [r, r'] := by
  simp [readTexts, List.mapM_cons, h, h']

theorem upper_texts : ∃ r0 r1, readTexts (dialect .postgresql) (sentTexts .postgresql hash draws [label "Entry" []]) = some [r0, r1] ∧
    r0.table = "entry" ∧ r1.table = "entry" := by
  have hb : buildTriggerset .postgresql [label "Entry" []] = [("denorm_after_row_update_on_Entry", updateTrigger "Entry"),
      ("denorm_after_row_insert_on_Entry", insertTrigger "Entry")] := by decide +kernel
  have h0 : ∃ r0, parseTrigger (dialect .postgresql) (lexC .postgresql (updateTriggerC (sentLit .postgresql)
      (writtenName .postgresql hash (draws 0) "denorm_after_row_update_on_Entry") (updateTrigger "Entry"))) = some r0 ∧ r0.table = "entry" := by
    have : (parseTrigger (dialect .postgresql) (lexC .postgresql (updateTriggerC (sentLit .postgresql)
      (writtenName .postgresql hash (draws 0) "denorm_after_row_update_on_Entry") (updateTrigger "Entry")))).map (·.table) = some "entry" := by
      decide +kernel
    simpa using this
  have h1 : ∃ r1, parseTrigger (dialect .postgresql) (lexC .postgresql (plainC .postgresql (sentLit .postgresql)
      (writtenName .postgresql hash (draws 1) "denorm_after_row_insert_on_Entry") (insertTrigger "Entry"))) = some r1 ∧ r1.table = "entry" := by
    have : (parseTrigger (dialect .postgresql) (lexC .postgresql (plainC .postgresql (sentLit .postgresql)
      (writtenName .postgresql hash (draws 1) "denorm_after_row_insert_on_Entry") (insertTrigger "Entry")))).map (·.table) = some "entry" := by
      decide +kernel
    simpa using this
  obtain ⟨r0, h0, h0'⟩ := h0
  obtain ⟨r1, h1, h1'⟩ := h1
  refine ⟨r0, r1, ?_, h0', h1'⟩
  have e0 : parseTrigger (dialect .postgresql) (lex .postgresql ((updateTrigger "Entry").text .postgresql (sentLit .postgresql)
      (writtenName .postgresql hash (draws 0) "denorm_after_row_update_on_Entry"))) = some r0 := by
    rw [lex_chars, updateTriggerC_eq _ _ (by decide) rfl, h0]
  have e1 : parseTrigger (dialect .postgresql) (lex .postgresql ((insertTrigger "Entry").text .postgresql (sentLit .postgresql)
      (writtenName .postgresql hash (draws 1) "denorm_after_row_insert_on_Entry"))) = some r1 := by
    rw [lex_chars, plainC_eq _ _ _ (by decide) rfl, h1]
  unfold sentTexts
  rw [hb]
  simp only [triggerTexts, Nat.zero_add]
  exact readTexts_two e0 e1

/-- **C59 is violated** on PostgreSQL by a `db_table` with an upper-case letter: `denorm_init` sends texts that the database can read, and then a
changed instance gets no marker although its value is out of date. (With the triggers the declarations ask for, it would be marked.) -/
theorem C59_violated : ∃ (decls : List Denorm) (cb : Callback) (rs : List ReadTrigger) (st : Stmt) (db db' : Db),
    cb.denorm ∈ decls ∧ readTexts (dialect .postgresql) (sentTexts .postgresql hash draws decls) = some rs ∧
    (∀ r ∈ db.rows cb.model.table, r cb.field = cb.value db r) ∧
    (⟨.postgresql, rs, fun _ => 0⟩ : TextDb).exec 100 st db = .ok db' ∧
    (∃ r ∈ db'.rows cb.model.table, r cb.field ≠ cb.value db' r ∧ ¬ Marked cb.model db' r) ∧
    ∃ db2, (⟨.postgresql, installedTriggers .postgresql decls, fun _ => 0⟩ : Engine).exec 100 st db = .ok db2 ∧
      ∀ r ∈ db2.rows cb.model.table, Marked cb.model db2 r := by
  obtain ⟨r0, r1, hr, h0, h1⟩ := upper_texts
  let x : Db := ⟨fun t => if t = "Entry" then [Demo.row [("id", .int 1), ("title", .text "a"), ("label", .text "a")]] else [], [], 0⟩
  let s : Stmt := .update "Entry" (fun _ => true) fun _ r => r.set "title" (.text "b")
  have hE : (⟨.postgresql, [r0, r1], fun _ => 0⟩ : TextDb).exec 100 s x = (⟨.postgresql, [], fun _ => 0⟩ : Engine).exec 100 s x :=
    exec_untouched (X := ⟨.postgresql, [r0, r1], fun _ => 0⟩) (t := "Entry")
      (by simp only [List.mem_cons, List.not_mem_nil, or_false]; rintro r (rfl | rfl) <;> simp [h0, h1]) 100 rfl
  have h2 : ∃ db', (⟨.postgresql, [], fun _ => 0⟩ : Engine).exec 100 s x = .ok db' ∧
      ∃ r ∈ db'.rows "Entry", r "label" ≠ upperLabel.value db' r ∧ ¬ Marked upperLabel.model db' r := ok_of (by decide +kernel)
  have h3 : ∃ db', (⟨.postgresql, installedTriggers .postgresql [label "Entry" []], fun _ => 0⟩ : Engine).exec 100 s x = .ok db' ∧
      ∀ r ∈ db'.rows "Entry", Marked upperLabel.model db' r := ok_of (by decide +kernel)
  obtain ⟨db', h4, h5⟩ := h2
  exact ⟨[label "Entry" []], upperLabel, [r0, r1], s, x, db', List.mem_singleton.2 rfl, hr, by decide, hE.trans h4, h5, h3⟩

end Texts

end Denorm
