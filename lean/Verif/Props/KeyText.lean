import Verif.Lemmas.TextFlush
import Verif.Props.Flush
import Verif.Props.Rebuild
import Verif.Props.ToField
/-!
# Markers name instances by the text of their key (C79)

Full statement of C79: the marker table has a text column for the key of the marked instance. For every type of key, backend and value, flush() gets back from the text the very key the trigger (or
rebuildall()) wrote, and two instances never share a text. So flush() over the marker table as it is does what it would do with the keys themselves.
-/
namespace Denorm

section
variable {b : Backend} {τ : KeyType} {v w : Val}

/-- C79: the text that a trigger writes for a key is read back as this key, for all integers (also negative ones), texts and UUIDs, on every backend. -/
theorem C79_trigger_text (h : τ.Holds b v) : ∃ s, v.asText = some s ∧ τ.read b s = some v := read_asText h

/-- C79: so is the text that rebuildall() writes. -/
theorem C79_python_text (h : τ.Holds b v) : ∃ s, τ.pythonText v = some s ∧ τ.read b s = some v := read_pythonText h

/-- C79: Python's text of a UUID is its digits in groups of 8, 4, 4, 4 and 12, with dashes between them. -/
theorem C79_uuid_text (u : Uuid) : ∃ g1 g2 g3 g4 g5 : Txt, u.dashed = g1 ++ ['-'] ++ g2 ++ ['-'] ++ g3 ++ ['-'] ++ g4 ++ ['-'] ++ g5 ∧
    g1 ++ g2 ++ g3 ++ g4 ++ g5 = u.digits.map hexDigit ∧ [g1, g2, g3, g4, g5].map List.length = [8, 4, 4, 4, 12] := by
  refine ⟨u.hex.take 8, (u.hex.drop 8).take 4, (u.hex.drop 12).take 4, (u.hex.drop 16).take 4, u.hex.drop 20, by simp [Uuid.dashed], ?_, ?_⟩
  · have h : ∀ (l : Txt), l.take 8 ++ (l.drop 8).take 4 ++ (l.drop 12).take 4 ++ (l.drop 16).take 4 ++ l.drop 20 = l := by
      intro l
      have e : ∀ n, (l.drop n).take 4 ++ l.drop (n + 4) = l.drop n := fun n => by rw [← List.drop_drop, List.take_append_drop]
      simp only [List.append_assoc]
      rw [e 16, e 12, e 8, List.take_append_drop]
    exact h _
  · have := u.length
    simp [Uuid.hex, this]

/-- C79: no two keys share a text, whoever wrote the texts. -/
theorem C79_distinct (h : τ.Holds b v) (h' : τ.Holds b w) (hne : v ≠ w) :
    v.asText ≠ w.asText ∧ τ.pythonText v ≠ τ.pythonText w ∧ v.asText ≠ τ.pythonText w := by
  obtain ⟨s, h1, h2⟩ := read_asText h
  obtain ⟨s', h1', h2'⟩ := read_asText h'
  obtain ⟨p, h3, h4⟩ := read_pythonText h
  obtain ⟨p', h3', h4'⟩ := read_pythonText h'
  rw [h1, h1', h3, h3']
  refine ⟨fun he => hne ?_, fun he => hne ?_, fun he => hne ?_⟩ <;> rw [Option.some.injEq] at he <;> subst he
  · rw [h2, Option.some.injEq] at h2'; exact h2'
  · rw [h4, Option.some.injEq] at h4'; exact h4'
  · rw [h2, Option.some.injEq] at h4'; exact h4'

/-- C79: the two texts of a key are the same, except for UUIDs on sqlite and MySQL. -/
theorem C79_same_text (h : τ.Holds b v) (hu : τ ≠ .uuid ∨ b = .postgresql) : τ.pythonText v = v.asText := by
  cases τ with
  | integer => rfl
  | char => rfl
  | uuid =>
    obtain ⟨u, rfl⟩ := h
    rcases hu with hu | rfl
    · exact absurd rfl hu
    · simp [KeyType.pythonText, Uuid.stored, Val.asText, readUuid_dashed]

end

section
variable {T : TextApp} {σ : Typing} {fuel : Nat}

/-- C79, statements: on the marker table as it is, any history of statements leaves the texts of the keys it would have left, and every marker holds a key of its model (or NULL). -/
theorem C79_history (hT : T.Typed σ) : ∀ (ss : List Stmt) {db : Db}, (∀ s ∈ ss, s.Fits T.engine.backend σ) → db.Fits T.engine.backend σ → T.MarksFit db →
    T.engine.runText fuel ss db.disk = (T.engine.run fuel ss db).disk ∧ (T.engine.run fuel ss db).Fits T.engine.backend σ ∧ T.MarksFit (T.engine.run fuel ss db)
  | [], _, _, h, hm => ⟨rfl, h, hm⟩
  | s :: ss, db, hs, h, hm => by
    have hss : ∀ s ∈ ss, s.Fits T.engine.backend σ := fun s h => hs s (List.mem_cons_of_mem _ h)
    simp only [Engine.runText, Engine.run, execText_disk]
    cases he : T.engine.exec fuel s db with
    | error e => exact C79_history hT ss hss h hm
    | ok db' =>
      obtain ⟨h1, h2⟩ := fits_exec hT.actions (hs s (List.mem_cons_self ..)) h hm he
      exact C79_history hT ss hss h1 h2

/-- C79, flush(): with texts it returns, raises or goes on as it does with keys, and leaves the same tables and the texts of the same markers. (`T.app` is the same project, with keys in its markers.) -/
theorem C79_flush (hT : T.Typed σ) (n : Nat) {db : Db} (h : db.Fits T.engine.backend σ) (hm : T.MarksFit db) :
    T.flush n db.disk = match T.app.flush n db with | .ok o => .ok (o.map Db.disk) | .error e => .error (.orm e) := flush_disk hT n h hm

/-- The project `T.app` meets the condition that other theorems have on the order of markers. -/
theorem C79_order (T : TextApp) (l : List Mark) : (T.app.arrange l).Perm l := arrange_perm T l

/-- C79 and C01 together: after any legal history, flush() over texts leaves no marker and nothing stale, whenever it returns. -/
theorem C79_nothing_stale {D : List Denorm} {om : OrmModel} {cb : Callback} (hT : T.Typed σ) {ss : List Stmt} {db : Db} (hs : ∀ s ∈ ss, s.Fits T.engine.backend σ)
    (h : db.Fits T.engine.backend σ) (hm : T.MarksFit db) (hL : LegalRun T.engine cb fuel ss db) (hK : KeysOk cb db)
    (hS : ∀ r ∈ db.rows cb.model.table, r cb.field = cb.value db r ∨ Marked cb.model db r)
    (hF : Flushable T.app D om cb (T.engine.run fuel ss db)) (hu : KeysUnique T.app (T.engine.run fuel ss db))
    {n : Nat} {x : Disk} (he : T.flush n (T.engine.runText fuel ss db.disk) = .ok (some x)) :
    x.marks = [] ∧ ∀ r ∈ x.db.rows cb.model.table, r cb.field = cb.value x.db r := by
  obtain ⟨h1, h2, h3⟩ := C79_history (fuel := fuel) hT ss hs h hm
  rw [h1, C79_flush hT n h2 h3] at he
  cases hf : T.app.flush n (T.engine.run fuel ss db) with
  | error e => rw [hf] at he; simp at he
  | ok o =>
    rw [hf] at he
    cases o with
    | none => simp at he
    | some db' =>
      simp only [Option.map_some, Except.ok.injEq, Option.some.injEq] at he
      subst he
      obtain ⟨h4, h5⟩ := C01_history_partial (A := T.app) (fuel := fuel) hL hK hS hF hu hf
      exact ⟨by simp [Db.disk, h4], fun r hr => (h5 r hr).trans (value_withDirty cb db' [] r).symm⟩

/-- C79, rebuildall(): the same, unless a model asked for has UUIDs as keys and the database is sqlite or MySQL. -/
theorem C79_rebuild_partial {D : List Denorm} {mn fn : Option String} (hT : T.Typed σ) (n : Nat) {db : Db} (h : db.Fits T.engine.backend σ) (hm : T.MarksFit db)
    (hk : ∀ m ∈ rebuildModels D mn fn, σ m.table m.pk = some (T.keyType m.ct) ∧ (T.keyType m.ct ≠ .uuid ∨ T.engine.backend = .postgresql)) :
    T.rebuildall D mn fn n db.disk = match T.app.rebuildall D mn fn n db with | .ok o => .ok (o.map Db.disk) | .error e => .error (.orm e) := by
  have hrm : T.rebuildMarks (rebuildModels D mn fn) db.disk = (rebuildMarks (rebuildModels D mn fn) db).map Mark.written := by
    unfold TextApp.rebuildMarks rebuildMarks
    rw [List.map_flatMap]
    suffices hl : ∀ l : List Model, (∀ m ∈ l, m ∈ rebuildModels D mn fn) →
        (l.flatMap fun m => (db.disk.db.rows m.table).map fun r => (⟨m.ct, (T.keyType m.ct).pythonText (r m.pk)⟩ : TextMark)) =
        l.flatMap fun m => ((db.rows m.table).map fun r => (⟨m.ct, r m.pk⟩ : Mark)).map Mark.written from hl _ fun m h => h
    intro l
    induction l with
    | nil => intro _; rfl
    | cons m l ih =>
      intro hl
      simp only [List.flatMap_cons]
      rw [ih fun m h => hl m (List.mem_cons_of_mem _ h)]
      congr 1
      rw [List.map_map]
      refine List.map_congr_left fun r hr => ?_
      obtain ⟨h1, h2⟩ := hk m (hl m (List.mem_cons_self ..))
      show (⟨m.ct, _⟩ : TextMark) = ⟨m.ct, (r m.pk).asText⟩
      rcases h m.table r hr m.pk _ h1 with h3 | h3
      · rw [h3]
        cases T.keyType m.ct <;> rfl
      · rw [C79_same_text h3 h2]
  have hd : ({ db.disk with marks := db.disk.marks ++ T.rebuildMarks (rebuildModels D mn fn) db.disk } : Disk) =
      (db.addMarks (rebuildMarks (rebuildModels D mn fn) db)).disk := by
    rw [hrm]
    simp [Db.disk, Db.addMarks]
  unfold TextApp.rebuildall App.rebuildall
  rw [hd]
  refine flush_disk hT n h fun m hm' => ?_
  rcases List.mem_append.1 hm' with hm' | hm'
  · exact hm m hm'
  · obtain ⟨md, hmd, hm'⟩ := List.mem_flatMap.1 hm'
    obtain ⟨r, hr, rfl⟩ := List.mem_map.1 hm'
    exact h md.table r hr md.pk _ (hk md hmd).1

/-- **C79 is violated** for UUIDs on sqlite and MySQL: rebuildall() writes dashes, triggers do not, so that one instance has two texts. Deleting the markers with the one text leaves the other. -/
theorem C79_violated_uuid {b : Backend} (hb : b ≠ .postgresql) (u : Uuid) (ct : Nat) (db : Db) :
    KeyType.uuid.pythonText (u.stored b) ≠ (u.stored b).asText ∧
    ⟨ct, (u.stored b).asText⟩ ∈ ((⟨db, [⟨ct, KeyType.uuid.pythonText (u.stored b)⟩, ⟨ct, (u.stored b).asText⟩]⟩ : Disk).dropMarks
      ⟨ct, KeyType.uuid.pythonText (u.stored b)⟩).marks := by
  have hs : u.stored b = .text (String.ofList u.hex) := by cases b <;> first | rfl | exact absurd rfl hb
  have hne : KeyType.uuid.pythonText (u.stored b) ≠ (u.stored b).asText := by
    rw [hs]
    simp only [KeyType.pythonText, Val.asText, String.toList_ofList, readUuid_hex, Option.map_some, ne_eq, Option.some.injEq]
    intro h
    have : '-' ∈ u.hex := by rw [← h]; simp [Uuid.dashed]
    obtain ⟨d, -, hd⟩ := List.mem_map.1 this
    exact hexDigit_ne_dash d hd
  refine ⟨hne, ?_⟩
  unfold Disk.dropMarks
  exact List.mem_filter.2 ⟨by simp, decide_eq_true fun h => hne (congrArg TextMark.oid h).symm⟩

end

/-! ## Integers: the blog, its entries and their comments -/

namespace Chain
set_option maxRecDepth 100000

/-- All keys are integers. -/
def typing : Typing := fun t c => if c = "id" ∨ (t = "entry" ∧ c = "blog_id") ∨ (t = "comment" ∧ c = "entry_id") then some .integer else none

def textApp (b : Backend) (arrange : List TextMark → List TextMark := fun l => l) : TextApp :=
  ⟨engine b, [blogOrm, entryOrm, commentOrm], fun _ => .integer, arrange, fun x _ _ => x.db.draws, 100⟩

theorem textTyped (b : Backend) {arrange : List TextMark → List TextMark} (ha : ∀ l, (arrange l).Perm l) : (textApp b arrange).Typed typing where
  actions := by
    have h : ∀ tr ∈ (engine b).triggers, ∀ a ∈ tr.actions, match a with
        | .markValues _ _ c _ => typing tr.table c = some .integer
        | .markSelect _ sel t' _ _ _ _ => typing t' sel = some .integer
        | .update u => typing u.table u.col = none := by
      intro tr htr a ha
      have hd : ∀ tr ∈ (engine b).triggers, ∀ a ∈ tr.actions, (match a with
        | .markValues _ _ c _ => decide (typing tr.table c = some .integer)
        | .markSelect _ sel t' _ _ _ _ => decide (typing t' sel = some .integer)
        | .update u => decide (typing u.table u.col = none)) = true := by cases b <;> decide
      have := hd tr htr a ha
      cases a <;> simpa using this
    intro tr htr a ha
    have := h tr htr a ha
    cases a <;> exact this
  fields := by
    intro om hom f hf
    simp only [textApp, List.mem_cons, List.not_mem_nil, or_false] at hom
    rcases hom with rfl | rfl | rfl
    · simp only [blogOrm, List.mem_singleton] at hf; subst hf; trivial
    · simp only [entryOrm, List.mem_cons, List.not_mem_nil, or_false] at hf
      rcases hf with rfl | rfl
      · trivial
      · intro τ hτ; simp [typing, entryOrm, entry] at hτ
    · simp only [commentOrm, List.mem_cons, List.not_mem_nil, or_false] at hf
      rcases hf with rfl | rfl
      · trivial
      · intro τ hτ; simp [typing, commentOrm, comment] at hτ
  arrange := ha

def isInt : Val → Bool
  | .int _ => true
  | _ => false

theorem fits_of {b : Backend} {t : TableName} {r : Row} (h : ∀ c ∈ ["id", "blog_id", "entry_id"], typing t c = some .integer → isInt (r c) = true) :
    r.Fits b typing t := by
  intro c τ hc
  right
  have hc' := hc
  unfold typing at hc'
  split at hc'
  · next hcc =>
    cases hc'
    have := h c (by rcases hcc with h | h | h <;> simp [h]) hc
    show ∃ i, r c = .int i
    cases hv : r c with
    | int i => exact ⟨i, rfl⟩
    | null => rw [hv] at this; cases this
    | text s => rw [hv] at this; cases this
  · cases hc'

theorem db_fits (b : Backend) : db.Fits b typing := by
  intro t r hr
  have hall : ∀ t ∈ ["blog", "entry", "comment"], ∀ r ∈ db.rows t, ∀ c ∈ ["id", "blog_id", "entry_id"], typing t c = some .integer → isInt (r c) = true := by decide
  refine fits_of (hall t ?_ r hr)
  unfold db at hr
  simp only at hr
  split at hr
  · next h => simp [h]
  · split at hr
    · next h => simp [h]
    · split at hr
      · next h => simp [h]
      · cases hr

theorem history_fits (b : Backend) : ∀ s ∈ history, s.Fits b typing := by
  intro s hs
  simp only [history, List.mem_cons, List.not_mem_nil, or_false] at hs
  rcases hs with rfl | rfl <;> intro x r hr <;> refine hr.set fun τ hτ => ?_ <;> simp [typing] at hτ

/-- `C79_nothing_stale`, and with it `C79_history` and `C79_flush`, apply to every order of the markers: the blog is renamed, somebody overwrites the path, and flush() repairs both. -/
example (b : Backend) : ∃ x, (textApp b).flush 2 ((engine b).runText 100 history db.disk) = .ok (some x) ∧ x.marks = [] ∧
    (x.db.rows "comment").map (fun r => r "path") = [.text "Z"] ∧ ∀ r ∈ x.db.rows "comment", r "path" = path.value x.db r := by
  have hx : (match (textApp b).flush 2 ((engine b).runText 100 history db.disk) with
      | .ok (some x) => decide ((x.db.rows "comment").map (fun r => r "path") = [.text "Z"])
      | _ => false) = true := by cases b <;> decide +kernel
  cases he : (textApp b).flush 2 ((engine b).runText 100 history db.disk) with
  | error e => rw [he] at hx; cases hx
  | ok o =>
    cases o with
    | none => rw [he] at hx; cases hx
    | some x =>
      rw [he] at hx
      have hu : KeysUnique (textApp b).app ((engine b).run 100 history db) := by
        have : KeysUnique (app b) ((engine b).run 100 history db) := by unfold KeysUnique; cases b <;> decide +kernel
        exact this
      obtain ⟨h1, h2⟩ := C79_nothing_stale (T := textApp b) (σ := typing) (D := decls) (om := commentOrm) (cb := path) (fuel := 100) (textTyped b fun _ => List.Perm.refl _)
        (history_fits b) (db_fits b) (by intro m hm; cases hm) (history_legal b) (by unfold KeysOk; decide) (by decide) (flushable_path b _ _) hu he
      exact ⟨x, rfl, h1, of_decide_eq_true hx, h2⟩

/-- The texts in between: the entry's marker, and the marker of the comment that was overwritten. -/
example (b : Backend) : ((engine b).runText 100 history db.disk).marks = [⟨12, some ['1']⟩, ⟨13, some ['1']⟩] := by cases b <;> decide +kernel

/-- `C79_rebuild_partial` applies. -/
example (b : Backend) (n : Nat) : (textApp b).rebuildall decls none none n db.disk =
    match (textApp b).app.rebuildall decls none none n db with | .ok o => .ok (o.map Db.disk) | .error e => .error (.orm e) :=
  C79_rebuild_partial (textTyped b fun _ => List.Perm.refl _) n (db_fits b) (by intro m hm; cases hm) (by
    intro m hm
    have hall : ∀ m ∈ rebuildModels decls none none, typing m.table m.pk = some .integer := by decide
    exact ⟨hall m hm, .inl (by simp [textApp])⟩)

/-- Keys and their texts: also 0, negative numbers and more digits than a machine word holds. -/
example : (Val.int 0).asText = some ['0'] ∧ (Val.int (-37)).asText = some ['-', '3', '7'] ∧
    KeyType.integer.read .sqlite ['1', '2', '3', '4', '5', '6', '7', '8', '9', '0', '1', '2', '3', '4', '5', '6', '7', '8', '9', '0'] = some (.int 12345678901234567890) ∧
    KeyType.integer.read .sqlite ['a', 't'] = none ∧ KeyType.integer.read .sqlite [] = none ∧ KeyType.integer.read .sqlite ['-'] = none := by decide

end Chain

/-! ## UUIDs -/

namespace Notes
open Demo (row)
set_option maxRecDepth 100000

def u1 : Uuid := ⟨[1, 2, 3, 4, 5, 6, 7, 8, 9, 10, 11, 12, 13, 14, 15, 0, 1, 2, 3, 4, 5, 6, 7, 8, 9, 10, 11, 12, 13, 14, 15, 0], rfl⟩

example : u1.dashed = ['1', '2', '3', '4', '5', '6', '7', '8', '-', '9', 'a', 'b', 'c', '-', 'd', 'e', 'f', '0', '-', '1', '2', '3', '4', '-', '5', '6', '7', '8', '9', 'a', 'b', 'c',
    'd', 'e', 'f', '0'] := by decide

/-- The notes again, with UUIDs (`true`) or integers as keys. -/
def textApp (b : Backend) (uuid : Bool) : TextApp := ⟨engine b, [noteOrm], fun _ => if uuid then .uuid else .integer, fun l => l, fun x _ _ => x.db.draws, 100⟩

/-- A note from before the triggers were installed. -/
def oneNote (b : Backend) (uuid : Bool) : Disk :=
  ⟨⟨fun t => if t = "note" then [row [("id", if uuid then u1.stored b else .int 1), ("text", .text "a"), ("shout", .text ""), ("whisper", .text "")]] else [], [], 0⟩, []⟩

/-- **C79 is violated**: on sqlite and MySQL, rebuildall() is done after one pass if the keys are integers (C25); if they are UUIDs, the marker that the first pass's own UPDATE leaves has another text
than the marker it was started for, and every instance is saved again. -/
theorem C79_violated_rebuild (b : Backend) (hb : b ≠ .postgresql) :
    (∃ x, (textApp b false).rebuildall decls none none 1 (oneNote b false) = .ok (some x)) ∧
    (textApp b true).rebuildall decls none none 1 (oneNote b true) = .ok none ∧
    ∃ x, (textApp b true).rebuildall decls none none 2 (oneNote b true) = .ok (some x) ∧ x.marks = [] := by
  refine ⟨?_, ?_, ?_⟩
  · have h : (match (textApp b false).rebuildall decls none none 1 (oneNote b false) with | .ok (some _) => true | _ => false) = true := by cases b <;> decide +kernel
    cases he : (textApp b false).rebuildall decls none none 1 (oneNote b false) with
    | error e => rw [he] at h; cases h
    | ok o => cases o with
      | none => rw [he] at h; cases h
      | some x => exact ⟨x, rfl⟩
  · have h : (match (textApp b true).rebuildall decls none none 1 (oneNote b true) with | .ok none => true | _ => false) = true := by
      cases b <;> first | exact absurd rfl hb | decide +kernel
    cases he : (textApp b true).rebuildall decls none none 1 (oneNote b true) with
    | error e => rw [he] at h; cases h
    | ok o => cases o with
      | none => rfl
      | some x => rw [he] at h; cases h
  · have h : (match (textApp b true).rebuildall decls none none 2 (oneNote b true) with | .ok (some x) => decide (x.marks = []) | _ => false) = true := by cases b <;> decide +kernel
    cases he : (textApp b true).rebuildall decls none none 2 (oneNote b true) with
    | error e => rw [he] at h; cases h
    | ok o => cases o with
      | none => rw [he] at h; cases h
      | some x => rw [he] at h; exact ⟨x, rfl, of_decide_eq_true h⟩

end Notes

/-! ## A ForeignKey with `to_field` again: the text is no key -/

namespace Atlas
set_option maxRecDepth 100000

def countryOrm : OrmModel := ⟨country, [⟨"code", .plain⟩, ⟨"name", .plain⟩, ⟨"cities", .callback cities.callback⟩]⟩
def cityOrm : OrmModel := ⟨city, [⟨"country_id", .plain⟩, ⟨"name", .plain⟩]⟩
def textApp (b : Backend) : TextApp := ⟨engine b [cities.denorm], [countryOrm, cityOrm], fun _ => .integer, fun l => l, fun x _ _ => x.db.draws, 100⟩

/-- Codes that are texts. -/
def textCodes : Db := ⟨fun t => if t = "country" then [corow 1 (.text "at") "Austria" "" 0] else [], [], 0⟩

/-- **C78 is violated** beyond lost updates: a city is added, the marker holds the code of its country, which is no number, and from then on flush() raises whenever it is
called. -/
theorem C78_violated_flush_raises (b : Backend) : ∃ x, (textApp b).engine.execText 100 (.insert "city" [cirow 1 (.text "at") "Graz" ""]) textCodes.disk = .ok x ∧
    x.marks = [⟨61, some ['a', 't']⟩] ∧ ∀ n, (textApp b).flush (n + 1) x = .error .badKey := by
  have h : (match (textApp b).engine.execText 100 (.insert "city" [cirow 1 (.text "at") "Graz" ""]) textCodes.disk with
      | .ok x => decide (x.marks = [⟨61, some ['a', 't']⟩]) | _ => false) = true := by cases b <;> decide +kernel
  cases he : (textApp b).engine.execText 100 (.insert "city" [cirow 1 (.text "at") "Graz" ""]) textCodes.disk with
  | error e => rw [he] at h; cases h
  | ok x =>
    rw [he] at h
    have hm : x.marks = [⟨61, some ['a', 't']⟩] := of_decide_eq_true h
    refine ⟨x, rfl, hm, fun n => ?_⟩
    have hs : (textApp b).snapshot x = [⟨61, some ['a', 't']⟩] := by
      unfold TextApp.snapshot
      rw [hm]
      cases b <;> rfl
    unfold TextApp.flush
    rw [if_neg (by rw [hm]; simp)]
    simp only [TextApp.pass, hs, TextApp.flushList, TextApp.flushOne, TextApp.saveObject]
    rfl

end Atlas
end Denorm
