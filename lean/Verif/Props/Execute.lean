import Verif.Lemmas.Execute
import Verif.Props.SqlText
/-!
# C47, C48 and C49 with the drivers

`Props/SqlText.lean` starts from the texts that have the parameters in them. Here these texts are what the drivers make of what `Trigger.sql` returns.
-/
namespace Denorm

theorem executeAll_get {b : Backend} {hash : String → String} {draws : Nat → String} : ∀ (ts : TriggerSet) (n i : Nat),
    (executeAll b hash draws n ts)[i]? =
      ts[i]?.map fun p => execute b (p.2.template b (writtenName b hash (draws (n + i)) p.1)) (p.2.params b)
  | [], _, _ => rfl
  | p :: ts, n, 0 => rfl
  | p :: ts, n, i + 1 => by
    simp only [executeAll, List.getElem?_cons_succ]
    rw [executeAll_get ts, Nat.add_assoc, Nat.add_comm 1]

theorem formatAll_get {b : Backend} {hash : String → String} {draws : Nat → String} : ∀ (ts : TriggerSet) (n i : Nat),
    (formatAll b hash draws n ts)[i]? = ts[i]?.map fun p =>
      (pyFormat (p.2.template b (writtenName b hash (draws (n + i)) p.1)).toList ((p.2.params b).map fun v => (printedLit v).toList)).map String.ofList
  | [], _, _ => rfl
  | p :: ts, n, 0 => rfl
  | p :: ts, n, i + 1 => by
    simp only [formatAll, List.getElem?_cons_succ]
    rw [formatAll_get ts, Nat.add_assoc, Nat.add_comm 1]

theorem fmt_built {D : Dialect} (hD : DialectOk D) {decls : List Denorm} (hw : ∀ d ∈ decls, d.Writable D) {hash : String → String} {draws : Nat → String}
    (hp : NamePieces hash draws) {p : String × PyTrigger} (hm : p ∈ buildTriggerset D.backend decls) (i : Nat) :
    Fmt D.backend (p.2.template D.backend (writtenName D.backend hash (draws i) p.1)) (p.2.params D.backend)
      (p.2.text D.backend (sentLit D.backend) (writtenName D.backend hash (draws i) p.1)) := by
  obtain ⟨g, hg, h1, _⟩ := (buildInv D.backend decls).head p hm
  obtain ⟨rest, hr⟩ := prefix_denorm D.backend g
  obtain ⟨⟨h2, h3⟩, h4⟩ := plain_written hD hp (h1.symm.trans hr) (plain_built hD hw hm) i
  exact fmt_trigger hD (fit_built hw p hm) (Clean.name h2)

/-- C47. Under the same conditions as in `C47_text_partial`, `cursor.execute` raises for none of the triggers, and what it sends are the texts considered
there. -/
theorem C47_executed_partial {D : Dialect} (hD : DialectOk D) {decls : List Denorm} (hw : ∀ d ∈ decls, d.Writable D)
    {hash : String → String} {draws : Nat → String} (hp : NamePieces hash draws) :
    executedTexts D.backend hash draws decls = (sentTexts D.backend hash draws decls).map some := by
  refine List.ext_getElem? fun i => ?_
  rw [executedTexts, executeAll_get, List.getElem?_map, sentTexts, triggerTexts_get]
  cases hi : (buildTriggerset D.backend decls)[i]? with
  | none => rfl
  | some p => simp only [Option.map_some, (fmt_built hD hw hp (List.mem_of_getElem? hi) _).executes]

/-- C48. Under the same conditions every statement that `denorm_init` executes is sent and accepted. -/
theorem C48_executed_partial {D : Dialect} (hD : DialectOk D) {decls : List Denorm} (hw : ∀ d ∈ decls, d.Writable D)
    (hf : D.backend ≠ .mysql → WatchesColumns D.backend decls) {hash : String → String} {draws : Nat → String} (hp : NamePieces hash draws) :
    ∀ sent ∈ executedTexts D.backend hash draws decls, ∃ text, sent = some text ∧ Accepted D text := by
  rw [C47_executed_partial hD hw hp]
  intro sent hs
  obtain ⟨text, ht, rfl⟩ := List.mem_map.1 hs
  exact ⟨text, rfl, C48_accepted_partial hD hw hf hp text ht⟩

/-- C49. `denorm_sql` prints what `denorm_init` executes: `sql % tuple(params)` raises for none of the triggers and is what `cursor.execute` sends, provided
the names and values can be written, no text is compared with in a filter, on sqlite no value at all, and on MySQL no trigger has a name of more
than fifty characters. -/
theorem C49_executed_partial {D : Dialect} (hD : DialectOk D) {decls : List Denorm} (hw : ∀ d ∈ decls, d.Writable D)
    (hv : ∀ d ∈ decls, ∀ c ∈ d.conds, (c.lookup = .exact ∧ c.value = .null) ∨ (D.backend ≠ .sqlite ∧ ∀ v ∈ c.values, ∃ i, v = .int i))
    (hm : D.backend = .mysql → ∀ p ∈ buildTriggerset D.backend decls, p.1.length ≤ 50) {hash : String → String} {draws draws' : Nat → String}
    (hp : NamePieces hash draws) :
    formatAll D.backend hash draws' 0 (buildTriggerset D.backend decls) = executedTexts D.backend hash draws decls ∧
    formatAll D.backend hash draws' 0 (buildTriggerset D.backend decls) = (printedTexts D.backend hash draws' decls).map some := by
  have h1 : formatAll D.backend hash draws' 0 (buildTriggerset D.backend decls) = (sentTexts D.backend hash draws decls).map some := by
    refine List.ext_getElem? fun i => ?_
    rw [formatAll_get, List.getElem?_map, sentTexts, triggerTexts_get]
    cases hi : (buildTriggerset D.backend decls)[i]? with
    | none => rfl
    | some p =>
      have hmem := List.mem_of_getElem? hi
      have hb := (fmt_built hD hw hp hmem (0 + i)).py [] []
      have hl : (p.2.params D.backend).map (fun v => (printedLit v).toList) = (p.2.params D.backend).map fun v => (sentLit D.backend v).toList := by
        refine List.map_congr_left fun v hv' => ?_
        obtain ⟨q, hq, hvq⟩ := List.mem_flatMap.1 hv'
        obtain ⟨a, ha, rfl⟩ := List.mem_map.1 (of_dedupFrom _ _ _ hq)
        obtain ⟨d, hd, c, hc, hcv, hne⟩ := params_built hmem ha hvq
        rcases hv d hd c hc with h | ⟨hb, hj⟩
        · exact absurd h hne
        · obtain ⟨j, rfl⟩ := hj v hcv
          rw [lit_int hb j]
      simp only [Option.map_some]
      rw [hl, writtenName_short (fun hb => hm hb p hmem) hash (draws' (0 + i)) (draws (0 + i))]
      rw [List.append_nil, List.append_nil] at hb
      rw [hb]
      simp [pyFormat]
  refine ⟨h1.trans (C47_executed_partial hD hw hp).symm, ?_⟩
  rw [h1, C49_printed_partial hv hm hash draws' draws]

namespace Texts
set_option maxRecDepth 100000

/-- The three theorems apply to the demo project, see the examples in `Props/SqlText.lean`; here is what happens with the placeholders: a text with a quote in
it and a percent sign. -/
example : execute .postgresql "SELECT a WHERE b = %s AND c LIKE '%%' AND d = %s" [.text "it's 5%s", .int (-3)] =
      some "SELECT a WHERE b = 'it''s 5%s' AND c LIKE '%' AND d = -3" ∧
    execute .mysql "b = %s" [.text "it's"] = some "b = 'it\\'s'" ∧
    execute .sqlite "b = %s AND \"c%\" = %%s" [.int 4] = some "b = ? AND \"c%\" = %s" ∧
    execute .mysql "b = %s" [] = none ∧ execute .mysql "b" [.int 1] = none ∧ execute .mysql "\"c%\"" [] = none := by
  refine ⟨?_, ?_, ?_, ?_, ?_, ?_⟩ <;> decide +kernel

/-- The value can be written on PostgreSQL, on MySQL and not on sqlite; it contains everything that has to be escaped. -/
example : LitOk .postgresql (.text "it's 5% \\ \"x\" $1") ∧ LitOk .mysql (.text "it's 5% \\ \"x\" $$\n") ∧ ¬ LitOk .sqlite (.int 1) := by decide

/-- `Forum.open_count = CountField('post_set', exclude={'share': None})`, where the column of `share` is called `share%`. -/
def percentCount : AggDenorm :=
  { countOf .null with related := { Demo.post with fields := Demo.post.fields ++ [Demo.fld "share%"] }, exclude := [⟨"share%", .exact, .null⟩] }

def percentTrigger : PyTrigger := mkTrigger (.model percentCount.related) .insert [percentCount.increment] 1 []

theorem percent_built (b : Backend) :
    (buildTriggerset b [.aggregate percentCount])[1]? = some ("denorm_after_row_insert_on_post", percentTrigger) := by
  cases b <;> rfl

/-- To evaluate what is executed for a trigger without a condition. -/
theorem executed_eq {b : Backend} {decls : List Denorm} {i : Nat} {name : String} {t : PyTrigger} (hb : b ≠ .sqlite)
    (h : (buildTriggerset b decls)[i]? = some (name, t)) (h1 : t.event ≠ .update) (h2 : t.contentTypeField = none) :
    (executedTexts b hash draws decls)[i]? = some ((pyFormat (plainC b placeholder (writtenName b hash (draws (0 + i)) name) t)
      ((t.params b).map fun v => (sentLit b v).toList)).map String.ofList) := by
  rw [executedTexts, executeAll_get, h, Option.map_some, ← plainC_eq b placeholder _ h1 h2]
  cases b with
  | sqlite => exact absurd rfl hb
  | _ => rfl

/-- C48 is violated on PostgreSQL and MySQL by a column with a percent sign in its name: `cursor.execute` raises. -/
theorem C48_violated_percent (b : Backend) (hb : b ≠ .sqlite) : (executedTexts b hash draws [.aggregate percentCount])[1]? = some none := by
  have hp : percentTrigger.params b = [] := by cases b <;> decide +kernel
  rw [executed_eq hb (percent_built b) (by decide) rfl, hp]
  cases b
  · exact absurd rfl hb
  · decide +kernel
  · decide +kernel

/-- On sqlite the same declaration is fine, but C49 is violated there: `denorm_sql` raises. -/
theorem C49_violated_percent :
    (formatAll .sqlite hash draws 0 (buildTriggerset .sqlite [.aggregate percentCount]))[1]? = some none ∧
    (executedTexts .sqlite hash draws [.aggregate percentCount])[1]? = (sentTexts .sqlite hash draws [.aggregate percentCount])[1]?.map some ∧
    readNth .sqlite (sentTexts .sqlite hash draws [.aggregate percentCount]) 1 =
      some (some { name := "denorm_after_row_insert_on_post", table := "post", event := .insert, cond := none, actions := [percentCount.increment] }) := by
  have hp : percentTrigger.params .sqlite = [] := by decide +kernel
  refine ⟨?_, ?_, ?_⟩
  · rw [formatAll_get, percent_built, Option.map_some]
    simp only [hp, PyTrigger.template]
    rw [plainC_eq .sqlite placeholder _ (by decide) rfl]
    decide +kernel
  · rw [executedTexts, executeAll_get, percent_built, Option.map_some, sentTexts, triggerTexts_get, percent_built]
    simp only [Option.map_some, execute, hp, PyTrigger.template]
    rw [plainC_eq .sqlite placeholder _ (by decide) rfl]
    have h1 : countMarks false (plainC .sqlite placeholder (writtenName .sqlite hash (draws (0 + 1)) "denorm_after_row_insert_on_post") percentTrigger) = 0 := by
      decide +kernel
    have h2 : singlePercents (questionMarks false
        (plainC .sqlite placeholder (writtenName .sqlite hash (draws (0 + 1)) "denorm_after_row_insert_on_post") percentTrigger)) =
        plainC .sqlite (sentLit .sqlite) (writtenName .sqlite hash (draws (0 + 1)) "denorm_after_row_insert_on_post") percentTrigger := by decide +kernel
    rw [h1, h2, ← plainC_eq .sqlite (sentLit .sqlite) _ (by decide) rfl, String.ofList_toList]
    rfl
  · rw [sentTexts, readNth_eq (percent_built _) (by decide) rfl]
    decide +kernel

/-- C48 is violated on PostgreSQL by a text with `$$` in `exclude=` (or `filter=`), which ends the body of the trigger's function; on MySQL the same declaration is fine. -/
theorem C48_violated_dollar : readNth .postgresql (sentTexts .postgresql hash draws [.aggregate (countOf (.text "a$$b"))]) 1 = some none ∧
    (Denorm.aggregate (countOf (.text "a$$b"))).Writable (dialect .mysql) := by
  refine ⟨?_, by decide +kernel⟩
  rw [sentTexts, readNth_eq (countTrigger_built _ _) (by decide) rfl]
  decide +kernel

end Texts

end Denorm
