import Verif.Lemmas.SqlRead
/-!
# The text of a whole trigger and how it is read
-/
namespace Denorm

/-! ## Conditions -/

/-- These tokens, before any others, are read as this part of a condition. -/
def ReadsAs (xs : List LTok) (ts : List Tok) : Prop := ∀ rest, condToks (xs ++ rest) = (condToks rest).map (ts ++ ·)

theorem ReadsAs.nil : ReadsAs [] [] := fun rest => by simp

theorem ReadsAs.app {xs ys : List LTok} {ts us : List Tok} (h : ReadsAs xs ts) (h' : ReadsAs ys us) : ReadsAs (xs ++ ys) (ts ++ us) := by
  intro rest
  rw [List.append_assoc, h, h', Option.map_map]
  congr 1
  funext x
  simp

theorem ReadsAs.all {xs : List LTok} {ts : List Tok} (h : ReadsAs xs ts) : condToks xs = some ts := by
  have := h []
  simpa [condToks] using this

/-- Neither of the words that end a condition. -/
def NoStop (xs : List LTok) : Prop := .word "THEN" ∉ xs ∧ .word "BEGIN" ∉ xs

theorem NoStop.app {xs ys : List LTok} (h : NoStop xs) (h' : NoStop ys) : NoStop (xs ++ ys) := by
  simp only [NoStop, List.mem_append, not_or] at *
  exact ⟨⟨h.1, h'.1⟩, h.2, h'.2⟩

theorem untilWord_toks {stop : String} {xs : List LTok} (h : .word stop ∉ xs) (rest : List LTok) :
    untilWord stop (xs ++ .word stop :: rest) = some (xs, rest) := by
  induction xs with
  | nil => simp [untilWord]
  | cons x xs ih =>
    simp only [List.mem_cons, not_or] at h
    simp [untilWord, Ne.symm h.1, ih h.2]

/-- The text is lexed and read as this part of a condition. -/
def CondC (b : Backend) (s : String) (ts : List Tok) : Prop := ∃ xs, LexC b s xs ∧ ReadsAs xs ts ∧ NoStop xs

theorem CondC.nil (b : Backend) : CondC b "" [] := ⟨[], .nil b, .nil, by decide, by decide⟩

theorem CondC.app {b : Backend} {s u : String} {ts us : List Tok} (h : CondC b s ts) (h' : CondC b u us) : CondC b (s ++ u) (ts ++ us) := by
  obtain ⟨xs, h1, h2, h3⟩ := h
  obtain ⟨ys, h4, h5, h6⟩ := h'
  exact ⟨xs ++ ys, h1.appC h4, h2.app h5, h3.app h6⟩

/-- A separator, which may end in a word. -/
def CondO (b : Backend) (s : String) (ts : List Tok) : Prop := ∃ xs, LexO b s xs ∧ ReadsAs xs ts ∧ NoStop xs

theorem CondO.app {b : Backend} {s u : String} {ts us : List Tok} (h : CondO b s ts) (h' : CondC b u us) (hu : startsSep u = true) :
    CondC b (s ++ u) (ts ++ us) := by
  obtain ⟨xs, h1, h2, h3⟩ := h
  obtain ⟨ys, h4, h5, h6⟩ := h'
  exact ⟨xs ++ ys, h1.appC h4 hu, h2.app h5, h3.app h6⟩

theorem startsSep_join {sep : String} {x : String} {l : List String} (h : startsSep x = true) : startsSep (joinText sep (x :: l)) = true := by
  cases l with
  | nil => exact h
  | cons y l => exact startsSep_append (startsSep_append h)

theorem cond_join {b : Backend} {sep : String} {ts : List Tok} (hs : CondO b sep ts) :
    ∀ l : List (String × List Tok), (∀ p ∈ l, CondC b p.1 p.2 ∧ startsSep p.1 = true) →
      CondC b (joinText sep (l.map (·.1))) (joinToks ts (l.map (·.2)))
  | [], _ => .nil b
  | [p], h => (h p (by simp)).1
  | p :: q :: l, h => by
    have h1 := (h p (by simp)).1
    have h2 := cond_join hs (q :: l) fun z hz => h z (List.mem_cons_of_mem _ hz)
    have h3 : startsSep (joinText sep ((q :: l).map (·.1))) = true := startsSep_join (h q (by simp)).2
    simp only [List.map_cons, joinText, joinToks, String.append_assoc, List.append_assoc] at h2 h3 ⊢
    exact h1.app (hs.app h2 h3)

theorem reads_lp : ReadsAs [.sym '('] [.lp] := fun rest => by
  simp only [List.cons_append, List.nil_append]; rw [condToks]
theorem reads_rp : ReadsAs [.sym ')'] [.rp] := fun rest => by
  simp only [List.cons_append, List.nil_append]; rw [condToks]
theorem reads_or : ReadsAs [.word "OR"] [.or] := fun rest => by
  simp only [List.cons_append, List.nil_append]; rw [condToks]
theorem reads_and : ReadsAs [.word "AND"] [.and] := fun rest => by
  simp only [List.cons_append, List.nil_append]; rw [condToks]
theorem reads_not : ReadsAs [.word "NOT"] [.not] := fun rest => by
  simp only [List.cons_append, List.nil_append]; rw [condToks]
theorem reads_isNot : ReadsAs [.word "IS", .word "NOT"] [.op .isNot] := fun rest => by
  simp only [List.cons_append, List.nil_append]; rw [condToks]
theorem reads_distinct : ReadsAs [.word "IS", .word "DISTINCT", .word "FROM"] [.op .distinct] := fun rest => by
  simp only [List.cons_append, List.nil_append]; rw [condToks]
theorem reads_nullSafe : ReadsAs [.sym '<', .sym '=', .sym '>'] [.op .nullSafe] := fun rest => by
  simp only [List.cons_append, List.nil_append]; rw [condToks]
theorem reads_ref (s : Side) (c : Col) : ReadsAs [.word s.str, .sym '.', .quoted c] [.ref s c] := fun rest => by
  cases s <;> simp only [List.cons_append, List.nil_append, Side.str] <;> rw [condToks]

theorem nat_ne {v : String} (h : v.toList.all Char.isDigit = false) (n : Nat) : toString n ≠ v := by
  intro e
  have hr : toString n = Nat.repr n := rfl
  rw [← e, ← Bool.not_eq_true, List.all_eq_true] at h
  apply h
  intro c hc
  rw [hr, Nat.repr, String.toList_ofList] at hc
  exact Nat.isDigit_of_mem_toDigits (by decide) (by decide) hc

theorem reads_num (n : Nat) : ReadsAs [.word (toString n)] [.num n] := fun rest => by
  have hn := numOf_nat n
  have h1 := nat_ne (v := "OR") (by decide) n
  have h2 := nat_ne (v := "AND") (by decide) n
  have h3 := nat_ne (v := "NOT") (by decide) n
  have h4 := nat_ne (v := "IS") (by decide) n
  have h5 := nat_ne (v := "OLD") (by decide) n
  have h6 := nat_ne (v := "NEW") (by decide) n
  generalize toString n = w at *
  simp only [List.cons_append, List.nil_append]
  rw [condToks] <;> simp_all

theorem reads_eq2 : ReadsAs [.sym '=', .sym '='] [.op .eq] := fun rest => by
  simp only [List.cons_append, List.nil_append]; rw [condToks]

theorem reads_eq_num (n : Nat) : ReadsAs [.sym '=', .word (toString n)] [.op .eq, .num n] := fun rest => by
  have := reads_num n rest
  simp only [List.cons_append, List.nil_append] at this ⊢
  rw [condToks]
  · rw [this]; simp [Function.comp_def]
  · simp

theorem noStop_num (n : Nat) : NoStop [.word (toString n)] := by
  simp only [NoStop, List.mem_singleton, LTok.word.injEq]
  exact ⟨Ne.symm (nat_ne (by decide) n), Ne.symm (nat_ne (by decide) n)⟩

theorem noStop_ref (s : Side) (c : Col) : NoStop [.word s.str, .sym '.', .quoted c] := by
  cases s <;> simp [NoStop, Side.str]

instance (xs : List LTok) : Decidable (NoStop xs) := inferInstanceAs (Decidable (_ ∧ _))

/-- `OLD.f .. NEW.f` with something between. -/
theorem cond_changed {b : Backend} {f : Col} (h : QuotableName b f) : CondC b (changedCondText b f) (changedText b f) := by
  have hq := lexC_qn h
  cases b
  · have h1 : LexC .sqlite "(OLD." [.sym '(', .word "OLD", .sym '.'] := by decide +kernel
    have h2 : LexC .sqlite " IS NOT NEW." [.word "IS", .word "NOT", .word "NEW", .sym '.'] := by decide +kernel
    have h3 : LexC .sqlite ")" [.sym ')'] := by decide +kernel
    refine ⟨_, (((h1.appC hq).appC h2).appC hq).appC h3, ?_, ?_⟩
    · exact (((reads_lp.app (reads_ref .old f)).app reads_isNot).app (reads_ref .new f)).app reads_rp
    · simp [NoStop]
  · have h1 : LexC .mysql "(NOT(OLD." [.sym '(', .word "NOT", .sym '(', .word "OLD", .sym '.'] := by decide +kernel
    have h2 : LexC .mysql " <=> NEW." [.sym '<', .sym '=', .sym '>', .word "NEW", .sym '.'] := by decide +kernel
    have h3 : LexC .mysql "))" [.sym ')', .sym ')'] := by decide +kernel
    refine ⟨_, (((h1.appC hq).appC h2).appC hq).appC h3, ?_, ?_⟩
    · exact ((((((reads_lp.app reads_not).app reads_lp).app (reads_ref .old f)).app reads_nullSafe).app (reads_ref .new f)).app reads_rp).app reads_rp
    · simp [NoStop]
  · have h1 : LexC .postgresql "(OLD." [.sym '(', .word "OLD", .sym '.'] := by decide +kernel
    have h2 : LexC .postgresql " IS DISTINCT FROM NEW." [.word "IS", .word "DISTINCT", .word "FROM", .word "NEW", .sym '.'] := by decide +kernel
    have h3 : LexC .postgresql ")" [.sym ')'] := by decide +kernel
    refine ⟨_, (((h1.appC hq).appC h2).appC hq).appC h3, ?_, ?_⟩
    · exact (((reads_lp.app (reads_ref .old f)).app reads_distinct).app (reads_ref .new f)).app reads_rp
    · simp [NoStop]

theorem startsSep_changed (b : Backend) (f : Col) : startsSep (changedCondText b f) = true := by
  cases b <;> exact startsSep_append (startsSep_append (startsSep_append (startsSep_append (by decide))))

theorem cond_lit {b : Backend} {s : String} {xs : List LTok} {ts : List Tok} (h : LexC b s xs) (h' : ReadsAs xs ts) (h'' : NoStop xs) : CondC b s ts :=
  ⟨xs, h, h', h''⟩

theorem cond_lp (b : Backend) : CondC b "(" [.lp] := cond_lit (by cases b <;> decide +kernel) reads_lp (by decide)
theorem cond_rp (b : Backend) : CondC b ")" [.rp] := cond_lit (by cases b <;> decide +kernel) reads_rp (by decide)
theorem cond_orSp (b : Backend) : CondC b " OR " [.or] := cond_lit (by cases b <;> decide +kernel) reads_or (by decide)
theorem cond_andSp (b : Backend) : CondC b " AND " [.and] := cond_lit (by cases b <;> decide +kernel) reads_and (by decide)

theorem CondC.toO {b : Backend} {s : String} {ts : List Tok} (h : CondC b s ts) : CondO b s ts := by
  obtain ⟨xs, h1, h2, h3⟩ := h
  exact ⟨xs, h1.toO, h2, h3⟩

theorem condO_or (b : Backend) : CondO b "OR" [.or] := ⟨_, lexO_word b ⟨by decide, by decide⟩, reads_or, by decide⟩
theorem condO_and (b : Backend) : CondO b "AND" [.and] := ⟨_, lexO_word b ⟨by decide, by decide⟩, reads_and, by decide⟩

/-- The comparison of a column with the number of a content type. -/
def ctPre : Side → String
  | .old => "(OLD."
  | .new => "(NEW."

def ctEq : Backend → String
  | .sqlite => " == "
  | _ => " = "

def ctPiece (b : Backend) (s : Side) (c : Col) (ct : Nat) : String := ctPre s ++ qn b c ++ ctEq b ++ toString ct ++ ")"

theorem cond_ct {b : Backend} {c : Col} (h : QuotableName b c) (s : Side) (ct : Nat) : CondC b (ctPiece b s c ct) (ctText s c ct) := by
  have hq := lexC_qn h
  have h0 : LexC b (ctPre s) [.sym '(', .word s.str, .sym '.'] := by
    cases b <;> cases s <;> decide +kernel
  have h3 : LexC b ")" [.sym ')'] := by cases b <;> decide +kernel
  have hn : NoStop ([.sym '('] ++ [.word s.str, .sym '.', .quoted c]) := NoStop.app (by decide) (noStop_ref s c)
  have hsep : startsSep ")" = true := by decide
  by_cases hb : b = .sqlite
  · subst hb
    have h2 : LexC .sqlite (ctEq .sqlite) [.sym '=', .sym '='] := by decide +kernel
    refine ⟨_, (((h0.appC hq).appC h2).appO (lexO_nat _ ct)).appC h3 hsep, ?_, ?_⟩
    · exact (((reads_lp.app (reads_ref s c)).app reads_eq2).app (reads_num ct)).app reads_rp
    · exact ((hn.app (by decide : NoStop [.sym '=', .sym '='])).app (noStop_num ct)).app (by decide)
  · have h2 : LexC b (ctEq b) [.sym '='] := by
      cases b
      · exact absurd rfl hb
      · decide +kernel
      · decide +kernel
    refine ⟨_, (((h0.appC hq).appC h2).appO (lexO_nat _ ct)).appC h3 hsep, ?_, ?_⟩
    · exact ((reads_lp.app (reads_ref s c)).app (reads_eq_num ct)).app reads_rp
    · exact ((hn.app (by decide : NoStop [.sym '='])).app (noStop_num ct)).app (by decide)

theorem startsSep_ct (b : Backend) (s : Side) (c : Col) (ct : Nat) : startsSep (ctPiece b s c ct) = true :=
  startsSep_append (startsSep_append (startsSep_append (startsSep_append (by cases s <;> decide))))

theorem ct_both_sqlite (q n : String) : "((OLD." ++ q ++ " == " ++ n ++ ") OR (NEW." ++ q ++ " == " ++ n ++ "))" =
    "(" ++ ("(OLD." ++ q ++ " == " ++ n ++ ")") ++ " OR " ++ ("(NEW." ++ q ++ " == " ++ n ++ ")") ++ ")" := by
  rw [show ("((OLD." : String) = "(" ++ "(OLD." by decide, show (") OR (NEW." : String) = ")" ++ " OR " ++ "(NEW." by decide,
    show ("))" : String) = ")" ++ ")" by decide]
  simp only [String.append_assoc]

theorem ct_both_postgres (q n : String) : "(OLD." ++ q ++ " = " ++ n ++ ") OR (NEW." ++ q ++ " = " ++ n ++ ")" =
    ("(OLD." ++ q ++ " = " ++ n ++ ")") ++ " OR " ++ ("(NEW." ++ q ++ " = " ++ n ++ ")") := by
  rw [show (") OR (NEW." : String) = ")" ++ " OR " ++ "(NEW." by decide]
  simp only [String.append_assoc]

theorem map_pairs {α β γ : Type _} (f : α → β) (g : α → γ) (l : List α) :
    (l.map fun x => (f x, g x)).map (·.1) = l.map f ∧ (l.map fun x => (f x, g x)).map (·.2) = l.map g := by
  simp [List.map_map, Function.comp_def]

theorem cond_changes {b : Backend} {sep : String} (hs : CondO b sep [.or]) {fs : List Col} (h : ∀ f ∈ fs, QuotableName b f) :
    CondC b (joinText sep (fs.map (changedCondText b))) (joinToks [.or] (fs.map (changedText b))) := by
  have e := map_pairs (changedCondText b) (changedText b) fs
  rw [← e.1, ← e.2]
  refine cond_join hs _ fun p hp => ?_
  obtain ⟨f, hf, rfl⟩ := List.mem_map.1 hp
  exact ⟨cond_changed (h f hf), startsSep_changed b f⟩

/-- Two lists of conditions that belong together. -/
def Paired (b : Backend) (ss : List String) (ts : List (List Tok)) : Prop :=
  ∃ l : List (String × List Tok), ss = l.map (·.1) ∧ ts = l.map (·.2) ∧ ∀ p ∈ l, CondC b p.1 p.2 ∧ startsSep p.1 = true

theorem Paired.nil (b : Backend) : Paired b [] [] := ⟨[], rfl, rfl, by simp⟩
theorem Paired.one {b : Backend} {s : String} {ts : List Tok} (h : CondC b s ts) (h' : startsSep s = true) : Paired b [s] [ts] :=
  ⟨[(s, ts)], rfl, rfl, by simp [h, h']⟩
theorem Paired.app {b : Backend} {ss ss' : List String} {ts ts' : List (List Tok)} (h : Paired b ss ts) (h' : Paired b ss' ts') :
    Paired b (ss ++ ss') (ts ++ ts') := by
  obtain ⟨l, rfl, rfl, h1⟩ := h
  obtain ⟨l', rfl, rfl, h2⟩ := h'
  refine ⟨l ++ l', by simp, by simp, fun p hp => ?_⟩
  rcases List.mem_append.1 hp with hp | hp
  · exact h1 p hp
  · exact h2 p hp
theorem Paired.join {b : Backend} {ss : List String} {ts : List (List Tok)} (h : Paired b ss ts) {sep : String} {us : List Tok} (hs : CondO b sep us) :
    CondC b (joinText sep ss) (joinToks us ts) := by
  obtain ⟨l, rfl, rfl, h1⟩ := h
  exact cond_join hs l h1
theorem Paired.empty {b : Backend} {ss : List String} {ts : List (List Tok)} (h : Paired b ss ts) : ss = [] ↔ ts = [] := by
  obtain ⟨l, rfl, rfl, h1⟩ := h
  simp

/-- Names in the trigger are fit for the way in which they are written. -/
structure TriggerFit (D : Dialect) (t : PyTrigger) : Prop where
  table : PlainName D t.table
  fields : ∀ f ∈ t.fields, QuotableName D.backend f
  ctField : ∀ c, t.contentTypeField = some c → QuotableName D.backend c
  actions : ∀ a ∈ t.actions, ActionFit D a

theorem paired_sqlite {t : PyTrigger} (h : ∀ f ∈ t.fields, QuotableName .sqlite f) (h' : ∀ c, t.contentTypeField = some c → QuotableName .sqlite c) :
    Paired .sqlite (sqliteConds t) (sqliteCond t.event t.fields t.contentTypeField t.contentType) := by
  refine Paired.app ?_ ?_
  · split
    · exact .one (((cond_lp _).app (cond_changes (condO_or _) h)).app (cond_rp _)) (startsSep_append (startsSep_append (by decide)))
    · exact .nil _
  · cases hc : t.contentTypeField with
    | none => exact .nil _
    | some c =>
      have hq := h' c hc
      have o1 := cond_ct hq .old t.contentType
      have o2 := startsSep_ct .sqlite .old c t.contentType
      have n1 := cond_ct hq .new t.contentType
      have n2 := startsSep_ct .sqlite .new c t.contentType
      simp only [ctPiece, ctPre, ctEq] at o1 o2 n1 n2
      cases t.event
      · exact .one n1 n2
      · have h1 := (((cond_lp .sqlite).app o1).app (cond_orSp _)).app n1 |>.app (cond_rp _)
        refine .one ?_ ?_
        · rw [ct_both_sqlite]
          exact h1
        · rw [ct_both_sqlite]
          exact startsSep_append (startsSep_append (startsSep_append (startsSep_append (by decide))))
      · exact .one o1 o2

theorem paired_postgres {t : PyTrigger} (h : ∀ f ∈ t.fields, QuotableName .postgresql f)
    (h' : ∀ c, t.contentTypeField = some c → QuotableName .postgresql c) :
    Paired .postgresql (postgresConds t) (postgresCond t.event t.fields t.contentTypeField t.contentType) := by
  refine Paired.app ?_ ?_
  · split
    · exact .one (((cond_lp _).app (cond_changes (cond_orSp _).toO h)).app (cond_rp _)) (startsSep_append (startsSep_append (by decide)))
    · exact .nil _
  · cases hc : t.contentTypeField with
    | none => exact .nil _
    | some c =>
      have hq := h' c hc
      have o1 := cond_ct hq .old t.contentType
      have o2 := startsSep_ct .postgresql .old c t.contentType
      have n1 := cond_ct hq .new t.contentType
      have n2 := startsSep_ct .postgresql .new c t.contentType
      simp only [ctPiece, ctPre, ctEq] at o1 o2 n1 n2
      cases t.event
      · exact .one n1 n2
      · have h1 := (o1.app (cond_orSp _)).app n1
        refine .one ?_ ?_
        · rw [ct_both_postgres]
          exact h1
        · rw [ct_both_postgres]
          exact startsSep_append (startsSep_append o2)
      · exact .one o1 o2

/-! ## The whole text -/

def headToks (name : String) (ev : Event) (table : TableName) : List LTok :=
  [.word "CREATE", .word "TRIGGER", .word name, .word "AFTER", .word ev.upper, .word "ON", .word table, .word "FOR", .word "EACH", .word "ROW"]

theorem parseHead_toks {D : Dialect} {name : String} {table : TableName} (hn : PlainName D name) (ht : PlainName D table) (ev : Event) (rest : List LTok) :
    parseHead D (headToks name ev table ++ rest) = some ((name, table, ev), rest) := by
  have he : eventOf ev.upper = some ev := by cases ev <;> decide
  simp [headToks, parseHead, hn.ident, ht.ident, he]

/-- The text up to `FOR EACH ROW`. -/
theorem lexC_head {D : Dialect} {name : String} {table : TableName} (hn : PlainName D name) (ht : PlainName D table) (ev : Event) {pre post : String}
    {ps : List LTok} (hp : LexC D.backend pre (ps ++ [.word "CREATE", .word "TRIGGER"])) {qs : List LTok}
    (hq : LexC D.backend post ([.word "FOR", .word "EACH", .word "ROW"] ++ qs)) (hs : startsSep post = true) :
    LexC D.backend (pre ++ name ++ "\n    AFTER " ++ ev.upper ++ " ON " ++ table ++ post) (ps ++ headToks name ev table ++ qs) := by
  have h1 : LexC D.backend "\n    AFTER " [.word "AFTER"] := by cases D.backend <;> decide +kernel
  have h2 : LexC D.backend " ON " [.word "ON"] := by cases D.backend <;> decide +kernel
  have h3 : LexO D.backend ev.upper [.word ev.upper] := lexO_word _ (by cases ev <;> exact ⟨by decide, by decide⟩)
  have := (((((hp.appO (lexO_word _ hn.word)).appC h1 (by decide)).appO h3).appC h2 (by decide)).appO (lexO_word _ ht.word)).appC hq hs
  simp only [List.append_assoc, List.cons_append, List.nil_append, headToks] at this ⊢
  exact this

theorem length_actionsToks (b : Backend) (as : List Action) : as.length ≤ (actionsToks b as).length := by
  induction as with
  | nil => simp
  | cons a as ih =>
    simp only [actionsToks, List.flatMap_cons, List.length_append, List.length_cons] at ih ⊢
    omega

/-- What reading gives for a trigger. -/
def PyTrigger.read (b : Backend) (name : String) (t : PyTrigger) : ReadTrigger :=
  ⟨name, t.table, t.event, (t.compile name).condText b, dedup t.actions⟩

theorem lex_of {b : Backend} {s : String} {ts : List LTok} (h : LexC b s ts) : lex b s = ts := by
  unfold lex
  rw [h]
  simp [lexEnd]

/-- The tokens of a condition and its statements: `open_` before the condition, `mid` after it. -/
theorem fuel_ok (b : Backend) (as : List Action) (xs ys : List LTok) (hx : xs ≠ []) : as.length < (xs ++ (actionsToks b as ++ ys)).length := by
  have := length_actionsToks b as
  have := List.length_pos_iff.2 hx
  simp only [List.length_append]
  omega

/-! ### sqlite -/

theorem lexC_sqliteFrame {D : Dialect} (hb : D.backend = .sqlite) {name : String} {t : PyTrigger} (hn : PlainName D name) (ht : PlainName D t.table)
    {wher acts : String} {ws as : List LTok} (hw : LexC D.backend wher ws) (ha : LexC D.backend acts as) :
    LexC D.backend (sqliteFrame name t.event.upper t.table wher acts)
      (headToks name t.event t.table ++ (ws ++ (.word "BEGIN" :: (as ++ [.word "END", .sym ';'])))) := by
  have h1 : LexC D.backend "\nCREATE TRIGGER " ([] ++ [.word "CREATE", .word "TRIGGER"]) := by rw [hb]; decide +kernel
  have h2 : LexC D.backend "\n    FOR EACH ROW " ([.word "FOR", .word "EACH", .word "ROW"] ++ []) := by rw [hb]; decide +kernel
  have h3 : LexC D.backend " BEGIN\n        " [.word "BEGIN"] := by rw [hb]; decide +kernel
  have h4 : LexC D.backend "\n    END;\n" [.word "END", .sym ';'] := by rw [hb]; decide +kernel
  have hl := ((lexC_head hn ht t.event h1 h2 (by decide)).appC hw).appC h3 |>.appC ha |>.appC h4
  simp only [List.append_assoc, List.nil_append, List.cons_append, List.append_nil] at hl
  exact hl

theorem sqliteWhen_nil {t : PyTrigger} (h : sqliteConds t = []) : sqliteWhen t = "" := by
  unfold sqliteWhen
  split
  · rfl
  · rename_i h'; exact absurd h (fun e => h' e)

theorem sqliteWhen_cons {t : PyTrigger} (h : sqliteConds t ≠ []) : sqliteWhen t = "WHEN(" ++ joinText "AND" (sqliteConds t) ++ ")" := by
  unfold sqliteWhen
  split
  · rename_i h'; exact absurd h' h
  · rfl

theorem condText_sqlite_nil {tr : DbTrigger} (h : sqliteCond tr.event tr.fields tr.ctField tr.ct = []) : tr.condText .sqlite = none := by
  simp only [DbTrigger.condText, h]

theorem condText_sqlite_cons {tr : DbTrigger} (h : sqliteCond tr.event tr.fields tr.ctField tr.ct ≠ []) :
    tr.condText .sqlite = some ([.lp] ++ joinToks [.and] (sqliteCond tr.event tr.fields tr.ctField tr.ct) ++ [.rp]) := by
  simp only [DbTrigger.condText]

theorem when_eq (j : String) : "WHEN" ++ ("(" ++ j ++ ")") = "WHEN(" ++ j ++ ")" := by
  rw [show ("WHEN(" : String) = "WHEN" ++ "(" by decide]
  simp only [String.append_assoc]

/-- sqlite's WHEN, in text and tokens. -/
theorem sqliteWhen_toks {t : PyTrigger} (h : ∀ f ∈ t.fields, QuotableName .sqlite f) (h' : ∀ c, t.contentTypeField = some c → QuotableName .sqlite c)
    (name : String) : ((t.compile name).condText .sqlite = none ∧ LexC .sqlite (sqliteWhen t) []) ∨
      ∃ c xs, (t.compile name).condText .sqlite = some c ∧ LexC .sqlite (sqliteWhen t) (.word "WHEN" :: xs) ∧ condToks xs = some c ∧ NoStop xs := by
  have hpair := paired_sqlite h h'
  have hcond := hpair.join (condO_and .sqlite)
  have hempty := hpair.empty
  by_cases hs : sqliteConds t = []
  · rw [sqliteWhen_nil hs]
    exact .inl ⟨condText_sqlite_nil (hempty.1 hs), .nil _⟩
  · obtain ⟨xs, hx1, hx2, hx3⟩ := ((cond_lp .sqlite).app hcond).app (cond_rp .sqlite)
    rw [sqliteWhen_cons hs]
    refine .inr ⟨_, xs, condText_sqlite_cons (fun e => hs (hempty.2 e)), ?_, hx2.all, hx3⟩
    have hwhen : LexC .sqlite ("WHEN" ++ ("(" ++ joinText "AND" (sqliteConds t) ++ ")")) ([.word "WHEN"] ++ xs) :=
      (lexO_word .sqlite (s := "WHEN") ⟨by decide, by decide⟩).appC hx1 (startsSep_append (startsSep_append (by decide)))
    rw [when_eq] at hwhen
    exact hwhen

theorem read_sqlite {D : Dialect} (hb : D.backend = .sqlite) (hD : DialectOk D) {name : String} {t : PyTrigger} (hn : PlainName D name)
    (ht : TriggerFit D t) : parseTrigger D (lex D.backend (sqliteTriggerText (sentLit .sqlite) name t)) = some (t.read .sqlite name) := by
  have hact := lexC_actions hD (sep := "\n        ") (.inl rfl) ht.actions
  have hda : ∀ a ∈ dedup t.actions, ActionFit D a := fun a ha => ht.actions a (of_dedupFrom _ _ _ ha)
  have hstmts := parseStmts_toks hD hda (stop := "END") (by decide) [.sym ';']
  have hfuel := fun xs => fuel_ok D.backend (dedup t.actions) (headToks name t.event t.table ++ xs) [.word "END", .sym ';'] (by simp [headToks])
  unfold sqliteTriggerText PyTrigger.read
  unfold parseTrigger
  rcases sqliteWhen_toks (hb ▸ ht.fields) (hb ▸ ht.ctField) name with ⟨h1, h2⟩ | ⟨c, xs, h1, h2, h3, h4⟩
  · have hl := lexC_sqliteFrame hb hn ht.table (hb ▸ h2) hact
    have hf := hfuel [.word "BEGIN"]
    rw [h1]
    rw [hb] at hl hf hstmts ⊢
    rw [lex_of hl]
    simp only [List.append_assoc, List.nil_append, List.cons_append] at hf ⊢
    simp only [parseHead_toks hn ht.table, hstmts _ hf]
  · have hl := lexC_sqliteFrame hb hn ht.table (hb ▸ h2) hact
    have hf := hfuel (.word "WHEN" :: (xs ++ [.word "BEGIN"]))
    rw [h1]
    rw [hb] at hl hf hstmts ⊢
    rw [lex_of hl]
    simp only [List.append_assoc, List.nil_append, List.cons_append] at hf ⊢
    simp only [parseHead_toks hn ht.table]
    simp only [untilWord_toks h4.2, h3, hstmts _ hf]

/-! ### MySQL and PostgreSQL -/

/-- A body with or without IF is read. -/
theorem parseBody_plain {D : Dialect} (hD : DialectOk D) {as : List Action} (h : ∀ a ∈ as, ActionFit D a) {stop : String}
    (hs : stop ≠ "UPDATE" ∧ stop ≠ "INSERT" ∧ stop ≠ "BEGIN") (hif : stop ≠ "IF") (rest : List LTok) {n : Nat} (hn : as.length < n) :
    parseBody D stop n (actionsToks D.backend as ++ .word stop :: rest) = some ((none, as), .word stop :: rest) := by
  have h1 := parseStmts_toks hD h hs rest n hn
  have h2 : ∀ r, actionsToks D.backend as ++ .word stop :: rest ≠ .word "IF" :: r := by
    intro r
    cases as with
    | nil => simp [actionsToks, hif]
    | cons a as =>
      obtain ⟨w, r', e, hw⟩ := toks_head (b := D.backend) a
      simp only [actionsToks, List.flatMap_cons, e, List.cons_append, ne_eq, List.cons.injEq, LTok.word.injEq, not_and]
      rintro rfl
      exact absurd hw (by decide)
  generalize actionsToks D.backend as ++ .word stop :: rest = ts at *
  rw [parseBody]
  · simp only [h1]
  · exact h2

theorem parseBody_if {D : Dialect} (hD : DialectOk D) {as : List Action} (h : ∀ a ∈ as, ActionFit D a) (stop : String) {xs : List LTok} {c : List Tok}
    (hx : condToks xs = some c) (hx' : NoStop xs) (rest : List LTok) {n : Nat} (hn : as.length < n) :
    parseBody D stop n (.word "IF" :: (xs ++ (.word "THEN" :: (actionsToks D.backend as ++ (.word "END" :: .word "IF" :: .sym ';' :: rest))))) =
      some ((some c, as), rest) := by
  have h1 := parseStmts_toks hD h (stop := "END") (by decide) (.word "IF" :: .sym ';' :: rest) n hn
  rw [parseBody]
  simp only [untilWord_toks hx'.1, hx, h1]

/-- The body of a trigger, in text and tokens. -/
def BodyToks (D : Dialect) (t : PyTrigger) (name : String) (bs : List LTok) : Prop :=
  ((t.compile name).condText D.backend = none ∧ bs = actionsToks D.backend (dedup t.actions)) ∨
  ∃ c xs, (t.compile name).condText D.backend = some c ∧ condToks xs = some c ∧ NoStop xs ∧
    bs = .word "IF" :: (xs ++ (.word "THEN" :: (actionsToks D.backend (dedup t.actions) ++ [.word "END", .word "IF", .sym ';'])))

theorem BodyToks.parse {D : Dialect} (hD : DialectOk D) {t : PyTrigger} (ht : TriggerFit D t) {name : String} {bs : List LTok}
    (hbt : BodyToks D t name bs) {stop : String} (hs : stop ≠ "UPDATE" ∧ stop ≠ "INSERT" ∧ stop ≠ "BEGIN") (hif : stop ≠ "IF") (pre rest : List LTok) :
    parseBody D stop (pre ++ (bs ++ .word stop :: rest)).length (bs ++ .word stop :: rest) =
      some (((t.compile name).condText D.backend, dedup t.actions), .word stop :: rest) := by
  have hda : ∀ a ∈ dedup t.actions, ActionFit D a := fun a ha => ht.actions a (of_dedupFrom _ _ _ ha)
  have hlen := length_actionsToks D.backend (dedup t.actions)
  rcases hbt with ⟨h1, rfl⟩ | ⟨c, xs, h1, h2, h3, rfl⟩
  · rw [h1]
    refine parseBody_plain hD hda hs hif rest ?_
    simp only [List.length_append, List.length_cons]
    omega
  · rw [h1]
    have := parseBody_if hD hda stop h2 h3 (.word stop :: rest)
      (n := (pre ++ (LTok.word "IF" :: (xs ++ (LTok.word "THEN" :: (actionsToks D.backend (dedup t.actions) ++ [LTok.word "END", .word "IF", .sym ';']))) ++
        LTok.word stop :: rest)).length) (by
        simp only [List.length_append, List.length_cons]
        omega)
    simp only [List.cons_append, List.append_assoc, List.nil_append] at this ⊢
    exact this

theorem mysqlBody_nil {lit : Val → String} {t : PyTrigger} (h : mysqlConds t = []) : mysqlBody lit t = actionsText .mysql lit "\n        " t.actions := by
  unfold mysqlBody
  split
  · rfl
  · rename_i h'; exact absurd h (fun e => h' e)

theorem mysqlBody_cons {lit : Val → String} {t : PyTrigger} (h : mysqlConds t ≠ []) : mysqlBody lit t =
    "\n        IF " ++ joinText " OR " (mysqlConds t) ++ " THEN\n            " ++ actionsText .mysql lit "\n            " t.actions ++
      "\n        END IF;\n            " := by
  unfold mysqlBody
  split
  · rename_i h'; exact absurd h' h
  · rfl

theorem condText_mysql_nil {tr : DbTrigger} (h : (if tr.event = .update then tr.fields.map (changedText .mysql) else []) = []) :
    tr.condText .mysql = none := by
  simp only [DbTrigger.condText, h]

theorem condText_mysql_cons {tr : DbTrigger} (h : (if tr.event = .update then tr.fields.map (changedText .mysql) else []) ≠ []) :
    tr.condText .mysql = some (joinToks [.or] (if tr.event = .update then tr.fields.map (changedText .mysql) else [])) := by
  simp only [DbTrigger.condText]

theorem mysqlConds_toks {t : PyTrigger} (h : ∀ f ∈ t.fields, QuotableName .mysql f) :
    CondC .mysql (joinText " OR " (mysqlConds t)) (joinToks [.or] (if t.event = .update then t.fields.map (changedText .mysql) else [])) ∧
    (mysqlConds t = [] ↔ (if t.event = .update then t.fields.map (changedText .mysql) else []) = []) := by
  unfold mysqlConds
  split
  · exact ⟨cond_changes (cond_orSp _).toO h, by simp⟩
  · exact ⟨.nil _, by simp⟩

theorem bodyToks_mysql {D : Dialect} (hb : D.backend = .mysql) (hD : DialectOk D) {t : PyTrigger} (ht : TriggerFit D t) (name : String) :
    ∃ bs, LexC D.backend (mysqlBody (sentLit .mysql) t) bs ∧ BodyToks D t name bs := by
  obtain ⟨hcond, hempty⟩ := mysqlConds_toks (hb ▸ ht.fields)
  have a1 := lexC_actions hD (sep := "\n        ") (.inl rfl) ht.actions
  have a2 := lexC_actions hD (sep := "\n            ") (.inr rfl) ht.actions
  by_cases hs : mysqlConds t = []
  · refine ⟨_, ?_, .inl ⟨by rw [hb]; exact condText_mysql_nil (hempty.1 hs), rfl⟩⟩
    rw [mysqlBody_nil hs]
    rw [hb] at a1 ⊢
    exact a1
  · obtain ⟨xs, hx1, hx2, hx3⟩ := hcond
    refine ⟨_, ?_, .inr ⟨_, xs, by rw [hb]; exact condText_mysql_cons (fun e => hs (hempty.2 e)), hx2.all, hx3, rfl⟩⟩
    rw [mysqlBody_cons hs]
    rw [hb] at a2 ⊢
    have h1 : LexC .mysql "\n        IF " [.word "IF"] := by decide +kernel
    have h2 : LexC .mysql " THEN\n            " [.word "THEN"] := by decide +kernel
    have h3 : LexC .mysql "\n        END IF;\n            " [.word "END", .word "IF", .sym ';'] := by decide +kernel
    have := (((h1.appC hx1).appC h2).appC a2).appC h3
    simp only [List.append_assoc, List.nil_append, List.cons_append] at this
    exact this

theorem lexC_mysqlFrame {D : Dialect} (hb : D.backend = .mysql) {name : String} {t : PyTrigger} (hn : PlainName D name) (ht : PlainName D t.table)
    {acts : String} {as : List LTok} (ha : LexC D.backend acts as) :
    LexC D.backend (mysqlFrame name t.event.upper t.table acts)
      (headToks name t.event t.table ++ (.word "BEGIN" :: (as ++ [.word "END", .sym ';']))) := by
  have h1 : LexC D.backend "\nCREATE TRIGGER " ([] ++ [.word "CREATE", .word "TRIGGER"]) := by rw [hb]; decide +kernel
  have h2 : LexC D.backend "\n    FOR EACH ROW BEGIN\n        " ([.word "FOR", .word "EACH", .word "ROW"] ++ [.word "BEGIN"]) := by rw [hb]; decide +kernel
  have h4 : LexC D.backend "\n    END;\n" [.word "END", .sym ';'] := by rw [hb]; decide +kernel
  have hl := ((lexC_head hn ht t.event h1 h2 (by decide)).appC ha).appC h4
  simp only [List.append_assoc, List.nil_append, List.cons_append] at hl
  exact hl

theorem read_mysql {D : Dialect} (hb : D.backend = .mysql) (hD : DialectOk D) {name : String} {t : PyTrigger} (hn : PlainName D name)
    (ht : TriggerFit D t) : parseTrigger D (lex D.backend (mysqlTriggerText (sentLit .mysql) name t)) = some (t.read .mysql name) := by
  obtain ⟨bs, hl, hbt⟩ := bodyToks_mysql hb hD ht name
  have hl := lexC_mysqlFrame hb hn ht.table hl
  have hp := hbt.parse hD ht (stop := "END") (by decide) (by decide) (headToks name t.event t.table ++ [.word "BEGIN"]) [.sym ';']
  unfold mysqlTriggerText PyTrigger.read parseTrigger
  rw [lex_of hl, hb]
  rw [hb] at hp
  simp only [List.append_assoc, List.nil_append, List.cons_append] at hp ⊢
  simp only [parseHead_toks hn ht.table, hp]

theorem postgresBody_nil {lit : Val → String} {t : PyTrigger} (h : postgresConds t = []) :
    postgresBody lit t = actionsText .postgresql lit "\n        " t.actions := by
  unfold postgresBody
  split
  · rfl
  · rename_i h'; exact absurd h (fun e => h' e)

theorem postgresBody_cons {lit : Val → String} {t : PyTrigger} (h : postgresConds t ≠ []) : postgresBody lit t =
    "IF " ++ joinText " AND " (postgresConds t) ++ " THEN\n            " ++ actionsText .postgresql lit "\n            " t.actions ++
      "\n        END IF;" := by
  unfold postgresBody
  split
  · rename_i h'; exact absurd h' h
  · rfl

theorem condText_postgres_nil {tr : DbTrigger} (h : postgresCond tr.event tr.fields tr.ctField tr.ct = []) : tr.condText .postgresql = none := by
  simp only [DbTrigger.condText, h]

theorem condText_postgres_cons {tr : DbTrigger} (h : postgresCond tr.event tr.fields tr.ctField tr.ct ≠ []) :
    tr.condText .postgresql = some (joinToks [.and] (postgresCond tr.event tr.fields tr.ctField tr.ct)) := by
  simp only [DbTrigger.condText]

theorem bodyToks_postgres {D : Dialect} (hb : D.backend = .postgresql) (hD : DialectOk D) {t : PyTrigger} (ht : TriggerFit D t) (name : String) :
    ∃ bs, LexC D.backend (postgresBody (sentLit .postgresql) t) bs ∧ BodyToks D t name bs := by
  have hpair := paired_postgres (t := t) (hb ▸ ht.fields) (hb ▸ ht.ctField)
  have hcond := hpair.join (cond_andSp .postgresql).toO
  have hempty := hpair.empty
  have a1 := lexC_actions hD (sep := "\n        ") (.inl rfl) ht.actions
  have a2 := lexC_actions hD (sep := "\n            ") (.inr rfl) ht.actions
  by_cases hs : postgresConds t = []
  · refine ⟨_, ?_, .inl ⟨by rw [hb]; exact condText_postgres_nil (hempty.1 hs), rfl⟩⟩
    rw [postgresBody_nil hs]
    rw [hb] at a1 ⊢
    exact a1
  · obtain ⟨xs, hx1, hx2, hx3⟩ := hcond
    refine ⟨_, ?_, .inr ⟨_, xs, by rw [hb]; exact condText_postgres_cons (fun e => hs (hempty.2 e)), hx2.all, hx3, rfl⟩⟩
    rw [postgresBody_cons hs]
    rw [hb] at a2 ⊢
    have h1 : LexC .postgresql "IF " [.word "IF"] := by decide +kernel
    have h2 : LexC .postgresql " THEN\n            " [.word "THEN"] := by decide +kernel
    have h3 : LexC .postgresql "\n        END IF;" [.word "END", .word "IF", .sym ';'] := by decide +kernel
    have := (((h1.appC hx1).appC h2).appC a2).appC h3
    simp only [List.append_assoc, List.nil_append, List.cons_append] at this
    exact this

def postgresHead (name : String) : List LTok :=
  [.word "CREATE", .word "OR", .word "REPLACE", .word "FUNCTION", .word ("func_" ++ name), .sym '(', .sym ')', .word "RETURNS", .word "TRIGGER",
    .word "AS", .sym '$', .sym '$', .word "BEGIN"]

def postgresMid : List LTok :=
  [.word "NULL", .sym ';', .word "END", .sym ';', .sym '$', .sym '$', .word "LANGUAGE", .word "plpgsql", .sym ';']

def postgresEnd (name : String) : List LTok :=
  [.word "EXECUTE", .word "PROCEDURE", .word ("func_" ++ name), .sym '(', .sym ')', .sym ';']

theorem postgresFrame_eq (name event table actions : String) : postgresFrame name event table actions =
    "\nCREATE OR REPLACE FUNCTION " ++ ("func_" ++ name) ++ "()\n    RETURNS TRIGGER AS $$\n    BEGIN\n        " ++ actions ++
      ("\n        RETURN NULL;\n    END;\n$$ LANGUAGE plpgsql;\nCREATE TRIGGER " ++ name ++ "\n    AFTER " ++ event ++ " ON " ++ table ++
        "\n    FOR EACH ROW EXECUTE PROCEDURE ") ++ ("func_" ++ name) ++ "();\n" := by
  unfold postgresFrame
  rw [show ("\nCREATE OR REPLACE FUNCTION func_" : String) = "\nCREATE OR REPLACE FUNCTION " ++ "func_" by decide,
    show ("\n    FOR EACH ROW EXECUTE PROCEDURE func_" : String) = "\n    FOR EACH ROW EXECUTE PROCEDURE " ++ "func_" by decide]
  simp only [String.append_assoc]

theorem lexC_postgresFrame {D : Dialect} (hb : D.backend = .postgresql) {name : String} {t : PyTrigger} (hn : PlainName D name)
    (hf : PlainName D ("func_" ++ name)) (ht : PlainName D t.table) {acts : String} {as : List LTok} (ha : LexC D.backend acts as) :
    LexC D.backend (postgresFrame name t.event.upper t.table acts)
      (postgresHead name ++ (as ++ (.word "RETURN" :: (postgresMid ++ (headToks name t.event t.table ++ postgresEnd name))))) := by
  have h1 : LexC D.backend "\nCREATE OR REPLACE FUNCTION " [.word "CREATE", .word "OR", .word "REPLACE", .word "FUNCTION"] := by rw [hb]; decide +kernel
  have h2 : LexC D.backend "()\n    RETURNS TRIGGER AS $$\n    BEGIN\n        " [.sym '(', .sym ')', .word "RETURNS", .word "TRIGGER", .word "AS", .sym '$',
    .sym '$', .word "BEGIN"] := by rw [hb]; decide +kernel
  have h3 : LexC D.backend "\n        RETURN NULL;\n    END;\n$$ LANGUAGE plpgsql;\nCREATE TRIGGER "
      ((.word "RETURN" :: postgresMid) ++ [.word "CREATE", .word "TRIGGER"]) := by rw [hb]; decide +kernel
  have h4 : LexC D.backend "\n    FOR EACH ROW EXECUTE PROCEDURE " ([.word "FOR", .word "EACH", .word "ROW"] ++ [.word "EXECUTE", .word "PROCEDURE"]) := by
    rw [hb]; decide +kernel
  have h5 : LexC D.backend "();\n" [.sym '(', .sym ')', .sym ';'] := by rw [hb]; decide +kernel
  have hhead := lexC_head hn ht t.event h3 h4 (by decide)
  have hl := ((((h1.appO (lexO_word _ hf.word)).appC h2 (by decide)).appC ha).appC hhead).appO (lexO_word _ hf.word) |>.appC h5 (by decide)
  rw [postgresFrame_eq]
  simp only [List.append_assoc, List.nil_append, List.cons_append, postgresHead, postgresEnd] at hl ⊢
  exact hl

theorem read_postgres {D : Dialect} (hb : D.backend = .postgresql) (hD : DialectOk D) {name : String} {t : PyTrigger} (hn : PlainName D name)
    (hf : PlainName D ("func_" ++ name)) (ht : TriggerFit D t) :
    parseTrigger D (lex D.backend (postgresTriggerText (sentLit .postgresql) name t)) = some (t.read .postgresql name) := by
  obtain ⟨bs, hl, hbt⟩ := bodyToks_postgres hb hD ht name
  have hl := lexC_postgresFrame hb hn hf ht.table hl
  have hp := hbt.parse hD ht (stop := "RETURN") (by decide) (by decide) (postgresHead name)
    (postgresMid ++ (headToks name t.event t.table ++ postgresEnd name))
  have hh := parseHead_toks hn ht.table t.event (postgresEnd name)
  have hi := hf.ident
  unfold postgresTriggerText PyTrigger.read parseTrigger
  rw [lex_of hl, hb]
  rw [hb] at hp
  generalize headToks name t.event t.table ++ postgresEnd name = hs at *
  simp only [postgresMid, postgresHead, postgresEnd, List.nil_append, List.cons_append] at hp hh ⊢
  simp only [hp, hh, hi, if_true]

/-- The text of a trigger is read as what it was made from. -/
theorem read_trigger {D : Dialect} (hD : DialectOk D) {name : String} {t : PyTrigger} (hn : PlainName D name)
    (hf : D.backend = .postgresql → PlainName D ("func_" ++ name)) (ht : TriggerFit D t) :
    parseTrigger D (lex D.backend (t.text D.backend (sentLit D.backend) name)) = some (t.read D.backend name) := by
  cases hb : D.backend
  · have := read_sqlite hb hD hn ht
    rw [hb] at this
    exact this
  · have := read_mysql hb hD hn ht
    rw [hb] at this
    exact this
  · have := read_postgres hb hD hn (hf hb) ht
    rw [hb] at this
    exact this

end Denorm
