import Verif.Code.CondText
import Verif.Lemmas.Engine
/-!
# The emitted condition text means what was intended (C44)
-/
namespace Denorm

/-! ## The parser -/

theorem parseAt_mono : ∀ {n : Nat} {l : Level} {ts : List Tok} {x : SqlExpr × List Tok}, parseAt n l ts = some x →
    parseAt (n + 1) l ts = some x := by
  intro n
  induction n with
  | zero => intro l ts x h; simp [parseAt] at h
  | succ n ih =>
    intro l ts x h
    cases l with
    | or =>
      rw [parseAt] at h ⊢
      cases h1 : parseAt n .and ts with
      | none => simp [h1] at h
      | some y =>
        rw [ih h1]
        rw [h1] at h
        obtain ⟨a, rest⟩ := y
        cases rest with
        | nil => exact h
        | cons t rest =>
          cases t <;> try exact h
          simp only at h ⊢
          cases h2 : parseAt n .or rest with
          | none => simp [h2] at h
          | some z => rw [ih h2]; rw [h2] at h; exact h
    | and =>
      rw [parseAt] at h ⊢
      cases h1 : parseAt n .not ts with
      | none => simp [h1] at h
      | some y =>
        rw [ih h1]
        rw [h1] at h
        obtain ⟨a, rest⟩ := y
        cases rest with
        | nil => exact h
        | cons t rest =>
          cases t <;> try exact h
          simp only at h ⊢
          cases h2 : parseAt n .and rest with
          | none => simp [h2] at h
          | some z => rw [ih h2]; rw [h2] at h; exact h
    | not =>
      cases ts with
      | nil => exact ih (l := .cmp) h
      | cons t rest =>
        cases t <;> try exact ih (l := .cmp) h
        rw [parseAt] at h ⊢
        cases h2 : parseAt n .not rest with
        | none => simp [h2] at h
        | some z => rw [ih h2]; rw [h2] at h; exact h
    | cmp =>
      rw [parseAt] at h ⊢
      cases h1 : parseAt n .atom ts with
      | none => simp [h1] at h
      | some y =>
        rw [ih h1]
        rw [h1] at h
        obtain ⟨a, rest⟩ := y
        cases rest with
        | nil => exact h
        | cons t rest =>
          cases t <;> try exact h
          simp only at h ⊢
          cases h2 : parseAt n .atom rest with
          | none => simp [h2] at h
          | some z => rw [ih h2]; rw [h2] at h; exact h
    | atom =>
      cases ts with
      | nil => exact h
      | cons t rest =>
        cases t <;> try exact h
        rw [parseAt] at h ⊢
        cases h2 : parseAt n .or rest with
        | none => simp [h2] at h
        | some z => rw [ih h2]; rw [h2] at h; exact h

theorem parseAt_le {n m : Nat} (h : n ≤ m) {l : Level} {ts : List Tok} {x : SqlExpr × List Tok} (hp : parseAt n l ts = some x) :
    parseAt m l ts = some x := by
  induction h with
  | refl => exact hp
  | step _ ih => exact parseAt_mono ih

/-- A text has at most one meaning. -/
theorem Parses.unique {ts : List Tok} {e e' : SqlExpr} (h : Parses ts e) (h' : Parses ts e') : e = e' := by
  obtain ⟨n, h⟩ := h
  obtain ⟨m, h'⟩ := h'
  have h1 := parseAt_le (Nat.le_max_left n m) h
  have h2 := parseAt_le (Nat.le_max_right n m) h'
  rw [h1] at h2
  simpa using h2

/-- Parsing at a level, with some recursion bound. -/
def At (l : Level) (ts : List Tok) (e : SqlExpr) (rest : List Tok) : Prop := ∃ n, parseAt n l ts = some (e, rest)

theorem At.ref (s : Side) (c : Col) (rest : List Tok) : At .atom (.ref s c :: rest) (.ref s c) rest := ⟨1, rfl⟩
theorem At.num (k : Nat) (rest : List Tok) : At .atom (.num k :: rest) (.num k) rest := ⟨1, rfl⟩

theorem At.paren {ts rest : List Tok} {e : SqlExpr} (h : At .or ts e (.rp :: rest)) : At .atom (.lp :: ts) e rest := by
  obtain ⟨n, h⟩ := h
  exact ⟨n + 1, by simp [parseAt, h]⟩

theorem At.cmp {ts rest rest' : List Tok} {a b : SqlExpr} {o : CmpOp} (h1 : At .atom ts a (.op o :: rest)) (h2 : At .atom rest b rest') :
    At .cmp ts (.cmp o a b) rest' := by
  obtain ⟨n, h1⟩ := h1
  obtain ⟨m, h2⟩ := h2
  have h1 := parseAt_le (Nat.le_max_left n m) h1
  have h2 := parseAt_le (Nat.le_max_right n m) h2
  exact ⟨max n m + 1, by simp [parseAt, h1, h2]⟩

/-- After an atom nothing follows that continues a comparison. -/
def NoOp (rest : List Tok) : Prop := ∀ o r, rest ≠ .op o :: r
def NoAnd (rest : List Tok) : Prop := ∀ r, rest ≠ .and :: r
def NoOr (rest : List Tok) : Prop := ∀ r, rest ≠ .or :: r

theorem At.atomCmp {ts rest : List Tok} {a : SqlExpr} (h : At .atom ts a rest) (hr : NoOp rest) : At .cmp ts a rest := by
  obtain ⟨n, h⟩ := h
  refine ⟨n + 1, ?_⟩
  rw [parseAt, h]
  cases rest with
  | nil => rfl
  | cons t r => cases t <;> first | rfl | exact absurd rfl (hr _ r)

theorem At.cmpNot {ts rest : List Tok} {a : SqlExpr} (h : At .cmp ts a rest) (ht : ∀ r, ts ≠ .not :: r) : At .not ts a rest := by
  obtain ⟨n, h⟩ := h
  refine ⟨n + 1, ?_⟩
  cases ts with
  | nil => exact h
  | cons t r => cases t <;> first | exact h | exact absurd rfl (ht r)

theorem At.notNot {ts rest : List Tok} {a : SqlExpr} (h : At .not ts a rest) : At .not (.not :: ts) (.not a) rest := by
  obtain ⟨n, h⟩ := h
  exact ⟨n + 1, by simp [parseAt, h]⟩

theorem At.notAnd {ts rest : List Tok} {a : SqlExpr} (h : At .not ts a rest) (hr : NoAnd rest) : At .and ts a rest := by
  obtain ⟨n, h⟩ := h
  refine ⟨n + 1, ?_⟩
  rw [parseAt, h]
  cases rest with
  | nil => rfl
  | cons t r => cases t <;> first | rfl | exact absurd rfl (hr r)

theorem At.and {ts rest rest' : List Tok} {a b : SqlExpr} (h1 : At .not ts a (.and :: rest)) (h2 : At .and rest b rest') :
    At .and ts (.and a b) rest' := by
  obtain ⟨n, h1⟩ := h1
  obtain ⟨m, h2⟩ := h2
  have h1 := parseAt_le (Nat.le_max_left n m) h1
  have h2 := parseAt_le (Nat.le_max_right n m) h2
  exact ⟨max n m + 1, by simp [parseAt, h1, h2]⟩

theorem At.andOr {ts rest : List Tok} {a : SqlExpr} (h : At .and ts a rest) (hr : NoOr rest) : At .or ts a rest := by
  obtain ⟨n, h⟩ := h
  refine ⟨n + 1, ?_⟩
  rw [parseAt, h]
  cases rest with
  | nil => rfl
  | cons t r => cases t <;> first | rfl | exact absurd rfl (hr r)

theorem At.or {ts rest rest' : List Tok} {a b : SqlExpr} (h1 : At .and ts a (.or :: rest)) (h2 : At .or rest b rest') :
    At .or ts (.or a b) rest' := by
  obtain ⟨n, h1⟩ := h1
  obtain ⟨m, h2⟩ := h2
  have h1 := parseAt_le (Nat.le_max_left n m) h1
  have h2 := parseAt_le (Nat.le_max_right n m) h2
  exact ⟨max n m + 1, by simp [parseAt, h1, h2]⟩

/-- A parenthesised text is an atom whatever follows; so it can stand at every level. -/
theorem At.parenNot {ts rest : List Tok} {e : SqlExpr} (h : At .or ts e (.rp :: rest)) (hr : NoOp rest) : At .not (.lp :: ts) e rest :=
  (h.paren.atomCmp hr).cmpNot (by simp)

theorem noAnd_rp (r : List Tok) : NoAnd (.rp :: r) := by simp [NoAnd]
theorem noOr_rp (r : List Tok) : NoOr (.rp :: r) := by simp [NoOr]
theorem noOp_rp (r : List Tok) : NoOp (.rp :: r) := by simp [NoOp]

theorem At.cmpOr {ts rest : List Tok} {a : SqlExpr} (h : At .cmp ts a rest) (ht : ∀ r, ts ≠ .not :: r) (h1 : NoAnd rest) (h2 : NoOr rest) :
    At .or ts a rest := ((h.cmpNot ht).notAnd h1).andOr h2

/-! ## Meaning of the pieces -/

/-- A text that parses as one operand of AND, whatever follows, with the given meaning. -/
def Piece (p : List Tok) (m : Change → Bool) : Prop :=
  ∃ e, (∀ rest, NoOp rest → At .not (p ++ rest) e rest) ∧ ∀ ch, e.eval ch = some true ↔ m ch = true

theorem piece_changed (b : Backend) (f : Col) : Piece (changedText b f) fun ch => Val.isNot (ch.old f) (ch.new f) := by
  have ev : ∀ (s : Side) (ch : Change), SqlExpr.value ch (.ref s f) = ch.side s f := fun _ _ => rfl
  cases b
  · refine ⟨.cmp .isNot (.ref .old f) (.ref .new f), fun rest hr => ?_, fun ch => ?_⟩
    · exact ((At.ref ..).cmp (.ref ..)).cmpOr (by simp) (noAnd_rp _) (noOr_rp _) |>.parenNot hr
    · simp [SqlExpr.eval, CmpOp.eval, ev, Change.side]
  · refine ⟨.not (.cmp .nullSafe (.ref .old f) (.ref .new f)), fun rest hr => ?_, fun ch => ?_⟩
    · have h1 : At .or [.ref .old f, .op .nullSafe, .ref .new f, .rp, .rp] _ [.rp, .rp] :=
        ((At.ref .old f _).cmp (At.ref .new f _)).cmpOr (by simp) (noAnd_rp _) (noOr_rp _)
      have h2 : At .or ([.ref .old f, .op .nullSafe, .ref .new f, .rp, .rp] ++ rest) _ ([.rp, .rp] ++ rest) :=
        ((At.ref .old f _).cmp (At.ref .new f _)).cmpOr (by simp) (noAnd_rp _) (noOr_rp _)
      exact (((h2.parenNot (noOp_rp _)).notNot.notAnd (noAnd_rp _)).andOr (noOr_rp _)).parenNot hr
    · simp [SqlExpr.eval, CmpOp.eval, ev, Change.side, not3]
  · refine ⟨.cmp .distinct (.ref .old f) (.ref .new f), fun rest hr => ?_, fun ch => ?_⟩
    · exact ((At.ref ..).cmp (.ref ..)).cmpOr (by simp) (noAnd_rp _) (noOr_rp _) |>.parenNot hr
    · simp [SqlExpr.eval, CmpOp.eval, ev, Change.side]

theorem piece_ct (s : Side) (c : Col) (ct : Nat) : Piece (ctText s c ct) fun ch => hasCt c ct (ch.side s) := by
  refine ⟨.cmp .eq (.ref s c) (.num ct), fun rest hr => ?_, fun ch => ?_⟩
  · exact ((At.ref ..).cmp (.num ..)).cmpOr (by simp) (noAnd_rp _) (noOr_rp _) |>.parenNot hr
  · simp [SqlExpr.eval, CmpOp.eval, hasCt, Val.sqlEq, SqlExpr.value]

/-- What can follow an OR list. -/
def EndsOr (rest : List Tok) : Prop := NoOp rest ∧ NoAnd rest ∧ NoOr rest

/-- A text that parses as a whole condition. -/
def Whole (p : List Tok) (m : Change → Bool) : Prop :=
  ∃ e, (∀ rest, EndsOr rest → At .or (p ++ rest) e rest) ∧ ∀ ch, e.eval ch = some true ↔ m ch = true

theorem Piece.whole {p : List Tok} {m : Change → Bool} (h : Piece p m) : Whole p m := by
  obtain ⟨e, h1, h2⟩ := h
  exact ⟨e, fun rest hr => ((h1 rest hr.1).notAnd hr.2.1).andOr hr.2.2, h2⟩

theorem or3_true {a b : Option Bool} : or3 a b = some true ↔ a = some true ∨ b = some true := by
  rcases a with _ | (_ | _) <;> rcases b with _ | (_ | _) <;> simp [or3]

theorem and3_true {a b : Option Bool} : and3 a b = some true ↔ a = some true ∧ b = some true := by
  rcases a with _ | (_ | _) <;> rcases b with _ | (_ | _) <;> simp [and3]

theorem Piece.orWhole {p q : List Tok} {m m' : Change → Bool} (h : Piece p m) (h' : Whole q m') :
    Whole (p ++ [.or] ++ q) fun ch => m ch || m' ch := by
  obtain ⟨e, h1, h2⟩ := h
  obtain ⟨e', h1', h2'⟩ := h'
  refine ⟨.or e e', fun rest hr => ?_, fun ch => ?_⟩
  · have a1 := h1 (.or :: (q ++ rest)) (by simp [NoOp])
    have a2 := (a1.notAnd (by simp [NoAnd])).or (h1' rest hr)
    simpa using a2
  · simp only [SqlExpr.eval, or3_true, h2, h2', Bool.or_eq_true]

theorem Whole.paren {p : List Tok} {m : Change → Bool} (h : Whole p m) : Piece ([.lp] ++ p ++ [.rp]) m := by
  obtain ⟨e, h1, h2⟩ := h
  refine ⟨e, fun rest hr => ?_, h2⟩
  have := (h1 (.rp :: rest) ⟨noOp_rp _, noAnd_rp _, noOr_rp _⟩).parenNot hr
  simpa using this

theorem Piece.andPiece {p q : List Tok} {m m' : Change → Bool} (h : Piece p m) (h' : Piece q m') :
    Whole (p ++ [.and] ++ q) fun ch => m ch && m' ch := by
  obtain ⟨e, h1, h2⟩ := h
  obtain ⟨e', h1', h2'⟩ := h'
  refine ⟨.and e e', fun rest hr => ?_, fun ch => ?_⟩
  · have a2 := ((h1 (.and :: (q ++ rest)) (by simp [NoOp])).and ((h1' rest hr.1).notAnd hr.2.1)).andOr hr.2.2
    simpa using a2
  · simp only [SqlExpr.eval, and3_true, h2, h2', Bool.and_eq_true]

/-- `p AND q OR r`: the AND is grouped first. -/
theorem Piece.andPieceOr {p q r : List Tok} {m m' m'' : Change → Bool} (h : Piece p m) (h' : Piece q m') (h'' : Whole r m'') :
    Whole (p ++ [.and] ++ (q ++ [.or] ++ r)) fun ch => (m ch && m' ch) || m'' ch := by
  obtain ⟨e, h1, h2⟩ := h
  obtain ⟨e', h1', h2'⟩ := h'
  obtain ⟨e'', h1'', h2''⟩ := h''
  refine ⟨.or (.and e e') e'', fun rest hr => ?_, fun ch => ?_⟩
  · have a1 : At .and (q ++ (.or :: (r ++ rest))) e' (.or :: (r ++ rest)) := (h1' _ (by simp [NoOp])).notAnd (by simp [NoAnd])
    have a2 := ((h1 (.and :: (q ++ (.or :: (r ++ rest)))) (by simp [NoOp])).and a1).or (h1'' rest hr)
    simpa using a2
  · simp only [SqlExpr.eval, or3_true, and3_true, h2, h2', h2'', Bool.or_eq_true, Bool.and_eq_true]

theorem whole_changed (b : Backend) : ∀ (fs : List Col), fs ≠ [] →
    Whole (joinToks [.or] (fs.map (changedText b))) fun ch => changedCols fs ch.old ch.new
  | [], h => absurd rfl h
  | [f], _ => by simpa [joinToks, changedCols] using (piece_changed b f).whole
  | f :: g :: fs, _ => by
    have := (piece_changed b f).orWhole (whole_changed b (g :: fs) (by simp))
    simpa [joinToks, changedCols] using this

theorem Whole.parses {p : List Tok} {m : Change → Bool} (h : Whole p m) : ∃ e, Parses p e ∧ ∀ ch, e.eval ch = some true ↔ m ch = true := by
  obtain ⟨e, h1, h2⟩ := h
  have := h1 [] ⟨by simp [NoOp], by simp [NoAnd], by simp [NoOr]⟩
  simp only [List.append_nil] at this
  exact ⟨e, this, h2⟩

/-! ## The property -/

/-- C44. Provided an UPDATE trigger watches at least one column, the text a backend emits is an SQL expression, and it is TRUE exactly
for the changes for which the engine model runs the trigger (`DbTrigger.fires`). Where no condition is emitted, the trigger always
runs. So the engine model is faithful to the text. -/
theorem C44_text_meaning_partial (b : Backend) (tr : DbTrigger) (hf : b ≠ .mysql → tr.event = .update → tr.fields ≠ []) :
    match tr.condText b with
    | none => ∀ ch, tr.fires b ch = true
    | some ts => ∃ e, Parses ts e ∧ ∀ ch, e.eval ch = some true ↔ tr.fires b ch = true := by
  rcases tr with ⟨name, table, event, fields, ctField, ct, actions⟩
  cases b
  · cases event <;> cases ctField <;> simp only [DbTrigger.condText, sqliteCond, reduceCtorEq, if_false, if_true, List.nil_append, List.append_nil,
      DbTrigger.fires, joinToks]
    · simp
    · exact (piece_ct ..).whole.paren.whole.parses
    · exact (whole_changed .sqlite fields (hf (by simp) rfl)).paren.whole.paren.whole.parses
    · rename_i c
      exact ((whole_changed .sqlite fields (hf (by simp) rfl)).paren.andPiece
        (((piece_ct .old c ct).orWhole (piece_ct .new c ct).whole).paren)).paren.whole.parses
    · simp
    · exact (piece_ct ..).whole.paren.whole.parses
  · cases event <;> simp only [DbTrigger.condText, reduceCtorEq, if_false, if_true, DbTrigger.fires]
    · simp
    · cases fields with
      | nil => simp
      | cons f fs =>
        obtain ⟨e, h1, h2⟩ := (whole_changed .mysql (f :: fs) (by simp)).parses
        exact ⟨e, h1, by simpa using h2⟩
    · simp
  · cases event <;> cases ctField <;> simp only [DbTrigger.condText, postgresCond, reduceCtorEq, if_false, if_true, List.nil_append,
      List.append_nil, DbTrigger.fires, joinToks]
    · simp
    · exact (piece_ct ..).whole.parses
    · exact (whole_changed .postgresql fields (hf (by simp) rfl)).paren.whole.parses
    · rename_i c
      exact ((whole_changed .postgresql fields (hf (by simp) rfl)).paren.andPieceOr (piece_ct .old c ct) (piece_ct .new c ct).whole).parses
    · simp
    · exact (piece_ct ..).whole.parses

/-- What a condition is meant to say: for an UPDATE some watched column changed (NULLs compare like values), and for a generic
relation the row belongs to the content type before or after. -/
def DbTrigger.Intended (tr : DbTrigger) (ch : Change) : Prop :=
  (tr.event = .update → ∃ f ∈ tr.fields, ch.old f ≠ ch.new f) ∧
  ∀ c, tr.ctField = some c →
    (tr.event ≠ .insert ∧ ch.old c = .int tr.ct) ∨ (tr.event ≠ .delete ∧ ch.new c = .int tr.ct)

theorem hasCt_iff {c : Col} {ct : Nat} {r : Row} : hasCt c ct r = true ↔ r c = .int ct := by
  simp only [hasCt, Val.sqlEq_iff]
  constructor
  · exact fun h => h.1
  · intro h; exact ⟨h, by simp [h]⟩

/-- C44. On sqlite the emitted text means what was intended; on PostgreSQL and MySQL it does for triggers that are not those of a
generic relation. -/
theorem C44_intended_partial (b : Backend) (tr : DbTrigger) (hf : tr.event = .update → tr.fields ≠ [])
    (hg : b = .sqlite ∨ tr.ctField = none) {ts : List Tok} (ht : tr.condText b = some ts) :
    ∃ e, Parses ts e ∧ ∀ ch, e.eval ch = some true ↔ tr.Intended ch := by
  have h := C44_text_meaning_partial b tr (fun _ => hf)
  rw [ht] at h
  obtain ⟨e, h1, h2⟩ := h
  refine ⟨e, h1, fun ch => (h2 ch).trans ?_⟩
  rcases tr with ⟨name, table, event, fields, ctField, ct, actions⟩
  rcases hg with rfl | rfl
  · cases event <;> cases ctField <;> simp [DbTrigger.fires, DbTrigger.Intended, changedCols_iff, hasCt_iff]
  · cases event <;> cases b <;> simp_all [DbTrigger.fires, DbTrigger.Intended, changedCols_iff]

/-- C44 is violated on PostgreSQL: `IF ((OLD.name IS DISTINCT FROM NEW.name)) AND (OLD.ct_id = 1) OR (NEW.ct_id = 1)` is TRUE for
a row that did not change. -/
theorem C44_violated_on_postgresql :
    let tr : DbTrigger := ⟨"t", "tag", .update, ["name"], some "ct_id", 1, []⟩
    let r : Row := fun c => if c = "ct_id" then .int 1 else .null
    ∃ ts e, tr.condText .postgresql = some ts ∧ Parses ts e ∧ e.eval ⟨"tag", .update, r, r⟩ = some true ∧
      ¬ tr.Intended ⟨"tag", .update, r, r⟩ := by
  refine ⟨_, _, rfl, ⟨20, rfl⟩, by decide, ?_⟩
  simp [DbTrigger.Intended]

/-- C44 is violated on MySQL: the content type is not looked at. -/
theorem C44_violated_on_mysql :
    let tr : DbTrigger := ⟨"t", "tag", .insert, ["name"], some "ct_id", 1, []⟩
    tr.condText .mysql = none ∧ ¬ tr.Intended ⟨"tag", .insert, fun _ => .null, fun _ => .null⟩ := by
  simp [DbTrigger.Intended, DbTrigger.condText]

theorem no_parse_rp (n : Nat) (l : Level) (r : List Tok) : parseAt n l (.rp :: r) = none := by
  induction n generalizing l with
  | zero => rfl
  | succ n ih => cases l <;> simp [parseAt, ih]

/-- C44 is violated for an UPDATE trigger whose skip list leaves no column to watch: sqlite's `WHEN(())` and PostgreSQL's `IF () THEN`
are not SQL. -/
theorem C44_violated_no_columns (b : Backend) (hb : b ≠ .mysql) (name table : String) :
    ∃ ts, (⟨name, table, .update, [], none, 0, []⟩ : DbTrigger).condText b = some ts ∧ ∀ e, ¬ Parses ts e := by
  have key : ∀ n l r, parseAt n l (.lp :: .rp :: r) = none := by
    intro n
    induction n with
    | zero => intro l r; rfl
    | succ n ih => intro l r; cases l <;> simp [parseAt, ih, no_parse_rp]
  have key2 : ∀ n l r, parseAt n l (.lp :: .lp :: .rp :: r) = none := by
    intro n
    induction n with
    | zero => intro l r; rfl
    | succ n ih => intro l r; cases l <;> simp [parseAt, ih, key]
  cases b
  · refine ⟨[.lp, .lp, .rp, .rp], rfl, ?_⟩
    rintro e ⟨n, h⟩
    rw [key2] at h
    simp at h
  · exact absurd rfl hb
  · refine ⟨[.lp, .rp], rfl, ?_⟩
    rintro e ⟨n, h⟩
    rw [key] at h
    simp at h

/-- A trigger of a generic relation that watches two columns meets the hypotheses. -/
example : ∃ ts, (⟨"t", "tag", .update, ["name", "object_id"], some "content_type_id", 1, []⟩ : DbTrigger).condText .sqlite = some ts ∧
    ts.length = 29 := ⟨_, rfl, rfl⟩

end Denorm
