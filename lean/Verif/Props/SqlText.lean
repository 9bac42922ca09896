import Verif.Lemmas.SqlDecls
import Verif.Lemmas.SqlParams
import Verif.Lemmas.SqlChars
import Verif.Props.CondText
import Verif.Demo
/-!
# The SQL text that is sent and printed (C47, C48, C49)
-/
namespace Denorm

theorem triggerTexts_get {b : Backend} {lit : Val → String} {hash : String → String} {draws : Nat → String} : ∀ (ts : TriggerSet) (n i : Nat),
    (triggerTexts b lit hash draws n ts)[i]? = ts[i]?.map fun p => p.2.text b lit (writtenName b hash (draws (n + i)) p.1)
  | [], n, i => by simp [triggerTexts]
  | p :: ts, n, 0 => by simp [triggerTexts]
  | p :: ts, n, i + 1 => by
    simp only [triggerTexts, List.getElem?_cons_succ]
    rw [triggerTexts_get ts (n + 1) i, show n + 1 + i = n + (i + 1) by omega]

theorem triggerTexts_length {b : Backend} {lit : Val → String} {hash : String → String} {draws : Nat → String} : ∀ (ts : TriggerSet) (n : Nat),
    (triggerTexts b lit hash draws n ts).length = ts.length
  | [], _ => rfl
  | _ :: ts, n => by simp [triggerTexts, triggerTexts_length ts (n + 1)]

theorem read_sent {D : Dialect} (hD : DialectOk D) {decls : List Denorm} (hw : ∀ d ∈ decls, d.Writable D) {hash : String → String} {draws : Nat → String}
    (hp : NamePieces hash draws) {p : String × PyTrigger} (hm : p ∈ buildTriggerset D.backend decls) (i : Nat) :
    parseTrigger D (lex D.backend (p.2.text D.backend (sentLit D.backend) (writtenName D.backend hash (draws i) p.1))) =
      some (p.2.read D.backend (createdName D.backend hash (draws i) p.1)) := by
  obtain ⟨g, hg, h1, _⟩ := (buildInv D.backend decls).head p hm
  obtain ⟨rest, hr⟩ := prefix_denorm D.backend g
  obtain ⟨⟨h2, h3⟩, h4⟩ := plain_written hD hp (h1.symm.trans hr) (plain_built hD hw hm) i
  rw [h4]
  exact read_trigger hD h2 (fun _ => h3) (fit_built hw p hm)

/-- C47. Let every table, key column and denormalized field of the declarations have a name that needs no quotes, let the values in filters be ones that can be
written as literals, and let the UPDATE triggers watch columns. Then the database that reads the texts sent by `denorm_init` finds one
trigger per text, the one that was generated: with its name, table, event and statements, and a condition that is TRUE exactly when the
generated trigger runs. -/
theorem C47_text_partial {D : Dialect} (hD : DialectOk D) {decls : List Denorm} (hw : ∀ d ∈ decls, d.Writable D)
    (hf : D.backend ≠ .mysql → WatchesColumns D.backend decls) {hash : String → String} {draws : Nat → String} (hp : NamePieces hash draws) :
    (sentTexts D.backend hash draws decls).length = (buildTriggerset D.backend decls).length ∧
    ∀ (i : Nat) (name : String) (t : PyTrigger), (buildTriggerset D.backend decls)[i]? = some (name, t) →
      ∃ text r, (sentTexts D.backend hash draws decls)[i]? = some text ∧ parseTrigger D (lex D.backend text) = some r ∧
        r.Means D.backend (t.compile (createdName D.backend hash (draws i) name)) := by
  refine ⟨triggerTexts_length _ _, fun i name t hi => ?_⟩
  have hm := List.mem_of_getElem? hi
  refine ⟨_, _, ?_, read_sent hD hw hp hm i, ?_⟩
  · unfold sentTexts
    rw [triggerTexts_get, hi, Option.map_some, Nat.zero_add]
  · have hc := C44_text_meaning_partial D.backend (t.compile (createdName D.backend hash (draws i) name)) (fun hb he => hf hb _ hm he)
    refine ⟨rfl, rfl, rfl, rfl, fun hn => ?_, fun ts hts => ?_⟩
    · have hn' : (t.compile (createdName D.backend hash (draws i) name)).condText D.backend = none := hn
      rw [hn'] at hc
      exact hc
    · have hn' : (t.compile (createdName D.backend hash (draws i) name)).condText D.backend = some ts := hts
      rw [hn'] at hc
      exact hc

/-- C48. Under the same conditions the database accepts every text that `denorm_init` sends. -/
theorem C48_accepted_partial {D : Dialect} (hD : DialectOk D) {decls : List Denorm} (hw : ∀ d ∈ decls, d.Writable D)
    (hf : D.backend ≠ .mysql → WatchesColumns D.backend decls) {hash : String → String} {draws : Nat → String} (hp : NamePieces hash draws) :
    ∀ text ∈ sentTexts D.backend hash draws decls, Accepted D text := by
  intro text ht
  obtain ⟨i, hi, rfl⟩ := List.getElem_of_mem ht
  obtain ⟨hl, h⟩ := C47_text_partial hD hw hf hp
  have hi' : i < (buildTriggerset D.backend decls).length := hl ▸ hi
  obtain ⟨text, r, h1, h2, h3⟩ := h i _ _ (List.getElem?_eq_getElem hi')
  rw [List.getElem?_eq_getElem hi, Option.some.injEq] at h1
  rw [h1]
  refine ⟨r, h2, fun ts hts => ?_⟩
  obtain ⟨e, he, _⟩ := h3.cond ts hts
  exact ⟨e, he⟩

theorem writtenName_short {b : Backend} {name : String} (h : b = .mysql → name.length ≤ 50) (hash : String → String) (d d' : String) :
    writtenName b hash d name = writtenName b hash d' name := by
  cases b with
  | sqlite => rfl
  | postgresql => rfl
  | mysql =>
    have := h rfl
    unfold writtenName
    simp only
    rw [if_neg (by omega), if_neg (by omega)]

theorem lit_int {b : Backend} (hb : b ≠ .sqlite) (i : Int) : printedLit (.int i) = sentLit b (.int i) := by
  cases b with
  | sqlite => exact absurd rfl hb
  | postgresql => simp only [printedLit, sentLit]
  | mysql => simp only [printedLit, sentLit]

/-- C49. `denorm_sql` prints what `denorm_init` sends, provided no text is compared with in a filter, on sqlite no value at all, and on MySQL no trigger has a
name of more than fifty characters. -/
theorem C49_printed_partial {b : Backend} {decls : List Denorm}
    (hv : ∀ d ∈ decls, ∀ c ∈ d.conds, (c.lookup = .exact ∧ c.value = .null) ∨ (b ≠ .sqlite ∧ ∀ v ∈ c.values, ∃ i, v = .int i))
    (hm : b = .mysql → ∀ p ∈ buildTriggerset b decls, p.1.length ≤ 50) (hash : String → String) (draws draws' : Nat → String) :
    printedTexts b hash draws decls = sentTexts b hash draws' decls := by
  refine List.ext_getElem? fun i => ?_
  unfold printedTexts sentTexts
  rw [triggerTexts_get, triggerTexts_get]
  cases hi : (buildTriggerset b decls)[i]? with
  | none => rw [Option.map_none, Option.map_none]
  | some p =>
    have hp := List.mem_of_getElem? hi
    simp only [Option.map_some, Option.some.injEq]
    rw [writtenName_short (fun hb => hm hb p hp) hash (draws (0 + i)) (draws' (0 + i))]
    refine text_congr (fun a ha v hv' => ?_) _
    obtain ⟨d, hd, c, hc, hcv, hne⟩ := params_built hp ha hv'
    rcases hv d hd c hc with h | ⟨hb, hj⟩
    · exact absurd h hne
    · obtain ⟨j, rfl⟩ := hj v hcv
      exact lit_int hb j

/-! ## Cases -/

namespace Texts
set_option maxRecDepth 100000

/-- Some of the words that the three databases reserve. -/
def words : List String := ["select", "from", "where", "order", "group", "table", "column", "index", "values", "update", "insert", "delete", "default",
  "check", "references", "primary", "and", "or", "not", "null", "in", "is", "set", "to", "case", "when", "then", "end", "limit", "having", "join", "on"]

def dialect (b : Backend) : Dialect := ⟨b, fun w => words.contains w⟩

theorem not_reserved (pre n : String) (h : words.all (fun w => !(pre.toList.isPrefixOf w.toList)) = true) : words.contains (pre ++ n) = false := by
  cases hc : words.contains (pre ++ n) with
  | false => rfl
  | true =>
    have := List.all_eq_true.1 h _ (by simpa using hc)
    rw [String.toList_append, show pre.toList.isPrefixOf (pre.toList ++ n.toList) = true from List.isPrefixOf_iff_prefix.2 (List.prefix_append ..)] at this
    cases this

theorem dialect_ok (b : Backend) : DialectOk (dialect b) :=
  ⟨fun n => not_reserved "denorm_" n (by decide), fun n => not_reserved "func_denorm_" n (by decide), by cases b <;> decide, by cases b <;> decide⟩

instance (s : String) : Decidable (WordText s) := by unfold WordText; infer_instance
instance (b : Backend) (s : String) : Decidable (QuotableName b s) := by unfold QuotableName; infer_instance
instance (D : Dialect) (s : String) : Decidable (PlainName D s) :=
  decidable_of_iff (WordText s ∧ s.toList.head?.any Char.isDigit = false ∧ D.reserved (foldCase s) = false ∧ (D.backend = .postgresql → foldCase s = s))
    ⟨fun h => ⟨h.1, h.2.1, h.2.2.1, h.2.2.2⟩, fun h => ⟨h.word, h.digit, h.free, h.lower⟩⟩
instance (b : Backend) (v : Val) : Decidable (LitOk b v) := by unfold LitOk; cases v <;> simp only <;> infer_instance
instance (D : Dialect) (d : Denorm) : Decidable (d.Writable D) :=
  decidable_of_iff ((∀ n ∈ d.bare, PlainName D n) ∧ (∀ n ∈ d.columns, QuotableName D.backend n) ∧
      ∀ c ∈ d.conds, (c.lookup = .exact ∧ c.value = .null) ∨ ∀ v ∈ c.values, LitOk D.backend v)
    ⟨fun h => ⟨h.1, h.2.1, h.2.2⟩, fun h => ⟨h.bare, h.columns, h.values⟩⟩
instance (b : Backend) (d : Denorm) : Decidable (d.Declarable b) := by unfold Denorm.Declarable; cases d <;> infer_instance
instance (b : Backend) (decls : List Denorm) : Decidable (WatchesColumns b decls) := by unfold WatchesColumns; infer_instance

def hash : String → String := fun s => if s.length < 60 then "0f3a" else "77be"
def draws : Nat → String := fun n => if n = 0 then "aZ3b_" else "Qq9_1"

theorem pieces : NamePieces hash draws := by
  refine ⟨fun s => ?_, fun n => ?_⟩
  · unfold hash; split <;> decide
  · unfold draws; split <;> decide

/-- `Forum.open_count = CountField('post_set', filter={'status': 'open', 'score__gt': 3, 'kind__in': ['a', "b')\\", ''], 'score__range': (4, 9)}, exclude={'hidden': None})` -/
def openCount (filter : List Cond) : AggDenorm :=
  { model := Demo.forum, fieldname := "open_count", related := Demo.post, fk := Demo.postForum, agg := .count, filter := filter,
    exclude := [⟨"hidden", .exact, .null⟩] }

/-- sqlite refuses `filter=`. -/
def conds (b : Backend) : List Cond := if b = .sqlite then [] else

  [⟨"status", .exact, .text "open"⟩, ⟨"score", .gt, .int 3⟩, ⟨"kind", .oneOf [.text "b')\\", .text ""], .text "a"⟩, ⟨"score", .between (.int 9), .int 4⟩]

/-- A table with a long name. -/
def attachment : Model :=
  { repr := "<class 'app.Attachment'>", appLabel := "app", name := "Attachment", table := "organisation_membership_application_attachment_version",
    pkTable := "organisation_membership_application_attachment_version", pk := "id", ct := 9, fields := [Demo.fld "id", Demo.fld "file"] }

def decls (b : Backend) : List Denorm :=
  .aggregate (openCount (conds b)) :: .callback false attachment "label" [] [] :: Demo.cacheKey :: Demo.decls

/-- C47 and C48 apply to the demo project on every database: foreign keys both ways, a many-to-many and a generic relation, a CacheKeyField, an
aggregate with conditions, and some triggers with names that are shortened. -/
example (b : Backend) : DialectOk (dialect b) ∧ (∀ d ∈ decls b, d.Declarable b ∧ d.Writable (dialect b)) ∧ WatchesColumns b (decls b) ∧
    NamePieces hash draws ∧ (buildTriggerset b (decls b)).length = 16 := by
  refine ⟨dialect_ok b, ?_, ?_, pieces, ?_⟩ <;> cases b <;> decide +kernel

/-- A model `Entry` with the table `t`, and a `@denormalized` field of it. -/
def entry (t : TableName) : Model :=
  { repr := "<class 'app.Entry'>", appLabel := "app", name := "Entry", table := t, pkTable := t, pk := "id", ct := 3,
    fields := [Demo.fld "id", Demo.fld "title"] }

def label (t : TableName) (skip : List String) : Denorm := .callback false (entry t) "label" skip []

/-- What the database reads in the text number `i`. -/
def readNth (b : Backend) (texts : List String) (i : Nat) : Option (Option ReadTrigger) := texts[i]?.map fun t => parseTrigger (dialect b) (lex b t)

/-- To evaluate `readNth` for a trigger without a condition. -/
theorem readNth_eq {b : Backend} {lit : Val → String} {draws : Nat → String} {decls : List Denorm} {i : Nat} {name : String} {t : PyTrigger}
    (h : (buildTriggerset b decls)[i]? = some (name, t)) (h1 : t.event ≠ .update) (h2 : t.contentTypeField = none) :
    readNth b (triggerTexts b lit hash draws 0 (buildTriggerset b decls)) i =
      some (parseTrigger (dialect b) (lexC b (plainC b lit (writtenName b hash (draws (0 + i)) name) t))) := by
  unfold readNth
  rw [triggerTexts_get, h, Option.map_some, Option.map_some, lex_chars, plainC_eq b lit _ h1 h2]

/-- The INSERT trigger of `label`. -/
def insertTrigger (t : TableName) : PyTrigger := mkTrigger (.model (entry t)) .insert [.markValues 3 .new "id" true] 3 []

/-- C47 is violated on PostgreSQL by a `db_table` with an upper-case letter: the trigger goes to another table. -/
theorem C47_violated_case : (buildTriggerset .postgresql [label "Entry" []]).map (fun p => (p.2.event, p.2.table)) =
      [(.update, "Entry"), (.insert, "Entry")] ∧
    (readNth .postgresql (sentTexts .postgresql hash draws [label "Entry" []]) 1).map (·.map fun r => (r.event, r.table)) =
      some (some (.insert, "entry")) := by
  refine ⟨by decide +kernel, ?_⟩
  rw [sentTexts, readNth_eq (name := "denorm_after_row_insert_on_Entry") (t := insertTrigger "Entry") (by decide +kernel) (by decide) rfl]
  decide +kernel

/-- C48 is violated by a table whose name is a reserved word: no database can read the triggers. -/
theorem C48_violated_reserved (b : Backend) : readNth b (sentTexts b hash draws [label "order" []]) 1 = some none := by
  rw [sentTexts, readNth_eq (name := "denorm_after_row_insert_on_order") (t := insertTrigger "order") (by cases b <;> decide +kernel) (by decide) rfl]
  cases b <;> decide +kernel

/-- `Forum.open_count = CountField('post_set', exclude={'status': v})` -/
def countOf (v : Val) : AggDenorm := { openCount [] with exclude := [⟨"status", .exact, v⟩] }

def countTrigger (v : Val) : PyTrigger := mkTrigger (.model Demo.post) .insert [(countOf v).increment] 1 []

theorem countTrigger_built (b : Backend) (v : Val) :
    (buildTriggerset b [.aggregate (countOf v)])[1]? = some ("denorm_after_row_insert_on_post", countTrigger v) := by
  cases b <;> rfl

/-- C48 is violated on sqlite by a value in `exclude=` (`filter=` is refused by the class statement): the text has a placeholder. On the other databases the same
declaration is fine. -/
theorem C48_violated_value : (Denorm.aggregate (countOf (.int 5))).Declarable .sqlite ∧ readNth .sqlite (sentTexts .sqlite hash draws [.aggregate (countOf (.int 5))]) 1 = some none ∧
    ∀ b, b ≠ .sqlite → (Denorm.aggregate (countOf (.int 5))).Writable (dialect b) := by
  refine ⟨fun _ => rfl, ?_, fun b hb => ?_⟩
  · rw [sentTexts, readNth_eq (countTrigger_built _ _) (by decide) rfl]
    decide +kernel
  · cases b
    · exact absurd rfl hb
    · decide +kernel
    · decide +kernel

/-- C48 is violated on sqlite and PostgreSQL by a skip list that leaves no column to watch. -/
theorem C48_violated_no_columns (b : Backend) (hb : b ≠ .mysql) : (label "entry" ["id", "title"]).Writable (dialect b) ∧
    ∃ text, (sentTexts b hash draws [label "entry" ["id", "title"]])[0]? = some text ∧ ¬ Accepted (dialect b) text := by
  have hw : (label "entry" ["id", "title"]).Writable (dialect b) := by cases b <;> decide +kernel
  refine ⟨hw, ?_⟩
  let t : PyTrigger := mkTrigger (.model (entry "entry")) .update [.markValues 3 .new "id" true] 3 ["id", "title"]
  have ht : (buildTriggerset b [label "entry" ["id", "title"]])[0]? = some ("denorm_after_row_update_on_entry", t) := by
    cases b <;> decide +kernel
  refine ⟨t.text b (sentLit b) (writtenName b hash (draws (0 + 0)) "denorm_after_row_update_on_entry"), ?_, fun ⟨r, hr, hc⟩ => ?_⟩
  · unfold sentTexts
    rw [triggerTexts_get, ht, Option.map_some]
  · have h := read_sent (dialect_ok b) (decls := [label "entry" ["id", "title"]]) (by simpa using hw) pieces (List.mem_of_getElem? ht) (0 + 0)
    have hr' := hr.symm.trans h
    rw [Option.some.injEq] at hr'
    subst hr'
    obtain ⟨ts, h1, h2⟩ := C44_violated_no_columns b hb (createdName b hash (draws (0 + 0)) "denorm_after_row_update_on_entry") "entry"
    have hs : (t.compile (createdName b hash (draws (0 + 0)) "denorm_after_row_update_on_entry")).condText b = some ts := by
      rw [← h1]
      cases b <;> rfl
    obtain ⟨e, he⟩ := hc ts hs
    exact h2 e he

/-- The comparison value that the increment of the read trigger has. -/
def comparedWith (r : Option (Option ReadTrigger)) : Option (Option (List Val)) := r.map (·.map fun r => r.actions.flatMap Action.params)

/-- C49 is violated by a text in a filter, which `denorm_sql` prints without quotes: what is printed cannot be read, or compares with something else than what
is sent. -/
theorem C49_violated_text :
    (readNth .mysql (printedTexts .mysql hash draws [.aggregate (countOf (.text "open"))]) 1 = some none ∧
      comparedWith (readNth .mysql (sentTexts .mysql hash draws [.aggregate (countOf (.text "open"))]) 1) = some (some [.text "open"])) ∧
    comparedWith (readNth .mysql (printedTexts .mysql hash draws [.aggregate (countOf (.text "5"))]) 1) = some (some [.int 5]) ∧
      comparedWith (readNth .mysql (sentTexts .mysql hash draws [.aggregate (countOf (.text "5"))]) 1) = some (some [.text "5"]) := by
  simp only [sentTexts, printedTexts]
  refine ⟨⟨?_, ?_⟩, ?_, ?_⟩ <;> rw [readNth_eq (countTrigger_built _ _) (by decide) rfl] <;> decide +kernel

/-- C49 is violated on sqlite by a number in `exclude=`: `denorm_sql` prints a statement that sqlite reads, `denorm_init` sends another that it does not. -/
theorem C49_violated_sqlite :
    comparedWith (readNth .sqlite (printedTexts .sqlite hash draws [.aggregate (countOf (.int 5))]) 1) = some (some [.int 5]) ∧
    readNth .sqlite (sentTexts .sqlite hash draws [.aggregate (countOf (.int 5))]) 1 = some none := by
  refine ⟨?_, C48_violated_value.2.1⟩
  rw [printedTexts, readNth_eq (countTrigger_built _ _) (by decide) rfl]
  decide +kernel

/-- C49 is violated on MySQL by a long table name: each run draws the end of the trigger's name anew. -/
theorem C49_violated_name :
    (readNth .mysql (printedTexts .mysql hash draws [.callback false attachment "label" [] []]) 1).map (·.map (·.name)) =
      some (some "denorm_after_row_insert_on_organisation_membeQq9_1") ∧
    (readNth .mysql (sentTexts .mysql hash (fun n => draws (n - 1)) [.callback false attachment "label" [] []]) 1).map (·.map (·.name)) =
      some (some "denorm_after_row_insert_on_organisation_membeaZ3b_") := by
  have h : (buildTriggerset .mysql [.callback false attachment "label" [] []])[1]? = some
      ("denorm_after_row_insert_on_organisation_membership_application_attachment_version",
        mkTrigger (.model attachment) .insert [.markValues 9 .new "id" true] 9 []) := by decide +kernel
  simp only [sentTexts, printedTexts]
  refine ⟨?_, ?_⟩ <;> rw [readNth_eq h (by decide) rfl] <;> decide +kernel

/-- C49 applies to the demo project, on PostgreSQL and MySQL also with a number in a filter. -/
example (b : Backend) : let decls := (if b = .sqlite then [] else [.aggregate (countOf (.int 5))]) ++ Demo.cacheKey :: Demo.decls
    (∀ d ∈ decls, ∀ c ∈ d.conds, (c.lookup = .exact ∧ c.value = .null) ∨ (b ≠ .sqlite ∧ ∀ v ∈ c.values, ∃ i, v = .int i)) ∧
    ∀ p ∈ buildTriggerset b decls, p.1.length ≤ 50 := by
  intro decls
  refine ⟨fun d hd c hc => ?_, ?_⟩
  · have : ∀ d ∈ decls, ∀ c ∈ d.conds, (c.lookup = .exact ∧ c.value = .null) ∨ (b ≠ .sqlite ∧ ∀ v ∈ c.values, v = .int 5) := by
      cases b <;> decide +kernel
    rcases this d hd c hc with h | ⟨h1, h2⟩
    · exact .inl h
    · exact .inr ⟨h1, fun v hv => ⟨5, h2 v hv⟩⟩
  · cases b <;> decide +kernel

end Texts

end Denorm
