import Verif.Lemmas.SqlLex
/-!
# The tokens of the actions
-/
namespace Denorm

theorem PlainName.ident {D : Dialect} {n : String} (h : PlainName D n) : identOf D (.word n) = some n := by
  simp only [identOf, h.free, h.digit, Bool.or_self, Bool.false_eq_true, if_false]
  split
  · rename_i e; rw [h.lower e]
  · rfl

theorem PlainName.quotable {D : Dialect} {n : String} (h : PlainName D n) : QuotableName D.backend n := by
  have no : ∀ c, isWordChar c = false → c ∉ n.toList := by
    intro c hc hm
    have := List.all_eq_true.1 h.word.2 _ hm
    rw [hc] at this
    cases this
  exact ⟨no _ (quote_not_word _), h.word.noBreak, no _ (by decide), fun _ => noDollars_free (no _ (by decide))⟩

theorem ident_quoted (D : Dialect) (n : String) : identOf D (.quoted n) = some n := rfl

/-- The name as a token. -/
def nameTok (quoted : Bool) (n : String) : LTok := if quoted then .quoted n else .word n

/-- The name is fit to be written with or without quotes. -/
def FitName (D : Dialect) (quoted : Bool) (n : String) : Prop := if quoted = true then QuotableName D.backend n else PlainName D n

theorem FitName.ident {D : Dialect} {q : Bool} {n : String} (h : FitName D q n) : identOf D (nameTok q n) = some n := by
  cases q
  · exact PlainName.ident h
  · rfl

theorem nameTok_isQuoted (q : Bool) (n : String) : (nameTok q n).isQuoted = q := by cases q <;> rfl

theorem FitName.noBreak {D : Dialect} {q : Bool} {n : String} (h : FitName D q n) : '\n' ∉ n.toList := by
  cases q
  · exact h.quotable.2.1
  · exact h.2.1

theorem FitName.lexO {D : Dialect} {q : Bool} {n : String} (h : FitName D q n) :
    LexO D.backend (if q = true then qn D.backend n else n) [nameTok q n] := by
  cases q
  · exact lexO_word _ (PlainName.word h)
  · exact (lexC_qn h).toO

/-! ## References -/

def refToks (s : Side) (c : Col) (q : Bool) : List LTok := [.word s.str, .sym '.', nameTok q c]

theorem lexO_ref {D : Dialect} {s : Side} {c : Col} {q : Bool} (h : FitName D q c) : LexO D.backend (refText D.backend s c q) (refToks s c q) := by
  have h1 : LexC D.backend (s.str ++ ".") [.word s.str, .sym '.'] := by
    cases D.backend <;> cases s <;> decide +kernel
  exact h1.appO h.lexO

theorem noBreak_ref {D : Dialect} {s : Side} {c : Col} {q : Bool} (h : FitName D q c) : '\n' ∉ (refText D.backend s c q).toList := by
  unfold refText
  rw [noBreak_append, noBreak_append]
  refine ⟨⟨by cases s <;> decide, by decide⟩, ?_⟩
  cases q
  · exact FitName.noBreak h
  · exact noBreak_qn (FitName.noBreak h)

theorem parseRef_toks {D : Dialect} {s : Side} {c : Col} {q : Bool} (h : FitName D q c) (rest : List LTok) :
    parseRef D (refToks s c q ++ rest) = some ((s, c, q), rest) := by
  have h1 : sideOf s.str = some s := by cases s <;> rfl
  simp [refToks, parseRef, h1, h.ident, nameTok_isQuoted]

/-! ## Nested selects -/

def fromToks (t : TableName) (k : Col) (s : Side) (c : Col) : List LTok :=
  [.word "FROM", .word t, .word "WHERE", .word k, .sym '='] ++ refToks s c true

theorem parseFrom_toks {D : Dialect} {t : TableName} {k : Col} {s : Side} {c : Col} (ht : PlainName D t) (hk : PlainName D k)
    (hc : QuotableName D.backend c) (rest : List LTok) :
    parseFrom D (fromToks t k s c ++ rest) = some ((t, k, s, c), rest) := by
  have h := parseRef_toks (D := D) (s := s) (c := c) (q := true) hc rest
  simp [fromToks, parseFrom, ht.ident, hk.ident, h]

/-- The columns of a nested select as text and tokens. -/
theorem lexO_nested {D : Dialect} {t : TableName} {cols : List String} {ctoks : List LTok} {k : Col} {s : Side} {c : Col}
    (hcols : LexO D.backend (joinText ", " cols) ctoks) (ht : PlainName D t) (hk : PlainName D k) (hc : QuotableName D.backend c) :
    LexO D.backend (nestedSelectText t cols k (refText D.backend s c true)) ([.word "SELECT", .word "DISTINCT"] ++ ctoks ++ fromToks t k s c) := by
  have h0 : LexC D.backend "SELECT DISTINCT " [.word "SELECT", .word "DISTINCT"] := by cases D.backend <;> decide +kernel
  have h1 : LexC D.backend " FROM " [.word "FROM"] := by cases D.backend <;> decide +kernel
  have h2 : LexC D.backend " WHERE " [.word "WHERE"] := by cases D.backend <;> decide +kernel
  have h3 : LexC D.backend " = " [.sym '='] := by cases D.backend <;> decide +kernel
  have := (((((h0.appO hcols).appC h1 (by decide)).appO (lexO_word _ ht.word)).appC h2 (by decide)).appO (lexO_word _ hk.word)).appC h3
    (by decide)
  have := this.appO (lexO_ref (D := D) (s := s) (c := c) (q := true) hc)
  unfold nestedSelectText fromToks
  simp only [List.append_assoc, List.cons_append, List.nil_append] at this ⊢
  exact this

theorem noBreak_nested {D : Dialect} {t : TableName} {cols : List String} {k : Col} {s : Side} {c : Col}
    (hcols : ∀ x ∈ cols, '\n' ∉ x.toList) (ht : PlainName D t) (hk : PlainName D k) (hc : QuotableName D.backend c) :
    '\n' ∉ (nestedSelectText t cols k (refText D.backend s c true)).toList := by
  unfold nestedSelectText
  simp only [noBreak_append, and_assoc]
  exact ⟨by decide, noBreak_join (by decide) hcols, by decide, ht.word.noBreak, by decide, hk.word.noBreak, by decide,
    noBreak_ref (D := D) (q := true) hc⟩

/-! ## Conditions -/

def litToks : Val → List LTok
  | .null => []
  | .int i => if i < 0 then [.sym '-', .word (toString i.natAbs)] else [.word (toString i.natAbs)]
  | .text s => [.str s]

theorem lexRun_escape (b : Backend) {acc : List Char} {x : Char} {w : List Char} (hd : b = .postgresql → noDollars (acc ++ x :: w) = true) :
    lexRun b (.str acc) (escapeChar b x) = (.str (acc ++ [x]), []) := by
  have he := endsBody_false hd
  cases b with
  | mysql =>
    simp only [escapeChar]
    repeat' split
    all_goals simp_all [lexRun, lexStep, mysqlUnescape]
  | _ =>
    simp only [escapeChar]
    split <;> simp_all [lexRun, lexStep]

theorem lexRun_str (b : Backend) : ∀ (w acc : List Char), (b = .postgresql → noDollars (acc ++ w) = true) →
    lexRun b (.str acc) (w.flatMap (escapeChar b)) = (.str (acc ++ w), [])
  | [], acc, _ => by simp [lexRun]
  | x :: w, acc, hd => by
    rw [List.flatMap_cons, lexRun_append, lexRun_escape b hd, lexRun_str b w _ (by simpa using hd)]
    simp

theorem lexO_str (b : Backend) {s : String} (h : b = .postgresql → noDollars s.toList = true) : LexO b ("'" ++ escapeText b s ++ "'") [.str s] := by
  intro c cs hc
  have hq := (isSepChar_iff.1 hc).2
  have e : ("'" ++ escapeText b s ++ "'").toList ++ c :: cs = '\'' :: (s.toList.flatMap (escapeChar b) ++ '\'' :: c :: cs) := by simp [escapeText]
  have h1 : isWordChar '\'' = false := by decide
  have h2 : '\'' ≠ nameQuote b := by cases b <;> decide
  rw [e, lexRun]
  simp only [lexStep, lexStart, h1, Bool.false_eq_true, if_false, h2, if_true]
  rw [lexRun_append, lexRun_str b s.toList [] h]
  simp [lexRun, lexStep, hq, String.ofList_toList]

theorem lexO_int (b : Backend) (i : Int) : LexO b (toString i) (litToks (.int i)) := by
  by_cases h : i < 0
  · obtain ⟨n, rfl⟩ : ∃ n : Nat, i = -n := ⟨i.natAbs, by omega⟩
    have e : (toString (-(n : Int))) = "-" ++ toString n := by
      cases n with
      | zero => simp at h
      | succ n => rfl
    rw [e]
    simp only [litToks, h, if_true, Int.natAbs_neg, Int.natAbs_natCast]
    intro c cs hc
    have hn := lexO_nat b n c cs hc
    obtain ⟨hne, hall⟩ := wordText_nat n
    cases en : (toString n).toList with
    | nil => exact absurd (by rw [← String.ofList_toList (s := toString n), en]) hne
    | cons x w =>
      rw [en] at hall
      simp only [List.all_cons, Bool.and_eq_true] at hall
      have hx : x ≠ '-' := by rintro rfl; revert hall; simp [show isWordChar '-' = false by decide]
      rw [String.toList_append, en]
      rw [en] at hn
      have hd : ("-" : String).toList = ['-'] := rfl
      rw [hd]
      simp only [List.cons_append, List.nil_append] at hn ⊢
      have hq : '-' ≠ nameQuote b := by cases b <;> decide
      have h1 : isWordChar '-' = false := by decide
      rw [lexRun]
      simp only [lexStep, lexStart, h1, Bool.false_eq_true, if_false, hq]
      simp only [show ('-' : Char) ≠ '\'' by decide, show ¬ (('-' : Char) = ' ' ∨ ('-' : Char) = '\n') by decide, if_false, if_true, List.nil_append]
      rw [lexRun] at hn ⊢
      simp only [lexStep, hx, if_false] at hn ⊢
      simp only [Prod.mk.injEq] at hn ⊢
      exact ⟨hn.1, by simp [hn.2]⟩
  · obtain ⟨n, rfl⟩ : ∃ n : Nat, i = n := ⟨i.natAbs, by omega⟩
    simp only [litToks, h, if_false, Int.natAbs_natCast]
    exact lexO_nat b n

theorem lexO_lit {b : Backend} {v : Val} (h : LitOk b v) : LexO b (sentLit b v) (litToks v) := by
  obtain ⟨hb, hv⟩ := h
  cases v with
  | null => cases hv
  | int i =>
    have : sentLit b (.int i) = toString i := by cases b <;> first | rfl | exact absurd rfl hb
    rw [this]; exact lexO_int b i
  | text s =>
    have : sentLit b (.text s) = "'" ++ escapeText b s ++ "'" := by cases b <;> first | rfl | exact absurd rfl hb
    rw [this]; exact lexO_str b fun e => (hv e).2.2

theorem noBreak_lit {b : Backend} {v : Val} (h : LitOk b v) : '\n' ∉ (sentLit b v).toList := by
  obtain ⟨hb, hv⟩ := h
  cases v with
  | null => cases hv
  | int i =>
    have : sentLit b (.int i) = toString i := by cases b <;> first | rfl | exact absurd rfl hb
    rw [this]
    cases i with
    | ofNat n => exact (wordText_nat n).noBreak
    | negSucc n =>
      have : toString (Int.negSucc n) = "-" ++ toString (n + 1) := rfl
      rw [this, noBreak_append]
      exact ⟨by decide, (wordText_nat _).noBreak⟩
  | text s =>
    have : sentLit b (.text s) = "'" ++ escapeText b s ++ "'" := by cases b <;> first | rfl | exact absurd rfl hb
    rw [this, noBreak_append, noBreak_append]
    refine ⟨⟨by decide, ?_⟩, by decide⟩
    rw [escapeText, String.toList_ofList]
    intro hm
    obtain ⟨c, hc, hm⟩ := List.mem_flatMap.1 hm
    cases b with
    | sqlite => exact absurd rfl hb
    | mysql =>
      simp only [escapeChar] at hm
      repeat' split at hm
      all_goals simp at hm
      exact absurd hm.symm ‹¬ c = '\n'›
    | postgresql =>
      simp only [escapeChar] at hm
      split at hm
      · simp at hm
      · simp only [List.mem_singleton] at hm
        exact (hv rfl).1 (hm ▸ hc)

theorem parseLit_toks {b : Backend} {v : Val} (h : LitOk b v) (rest : List LTok) : parseLit (litToks v ++ rest) = some (v, rest) := by
  cases v with
  | null => exact absurd h.2 (by simp)
  | int i =>
    by_cases hi : i < 0
    · obtain ⟨n, rfl⟩ : ∃ n : Nat, i = -n := ⟨i.natAbs, by omega⟩
      simp only [litToks, hi, if_true, Int.natAbs_neg, Int.natAbs_natCast, List.cons_append, List.nil_append, parseLit, numOf_nat, Option.map_some]
    · obtain ⟨n, rfl⟩ : ∃ n : Nat, i = n := ⟨i.natAbs, by omega⟩
      simp only [litToks, hi, if_false, Int.natAbs_natCast, List.cons_append, List.nil_append, parseLit, numOf_nat, Option.map_some]
  | text s => rfl

theorem litToks_ne {b : Backend} {v : Val} (h : LitOk b v) : litToks v ≠ [] := by
  cases v with
  | null => exact absurd h.2 (by simp)
  | int i => simp only [litToks]; split <;> simp
  | text s => simp [litToks]

theorem parseLits_toks {b : Backend} : ∀ {vs : List Val}, vs ≠ [] → (∀ v ∈ vs, LitOk b v) → ∀ (n : Nat) (rest : List LTok),
    (joinL [.sym ','] (vs.map litToks)).length ≤ n → (∀ r, rest ≠ .sym ',' :: r) →
    parseLits n (joinL [.sym ','] (vs.map litToks) ++ rest) = some (vs, rest)
  | [], h, _, _, _, _, _ => absurd rfl h
  | [v], _, h, n, rest, hn, hr => by
    have hv := h v (by simp)
    have h0 := List.length_pos_iff.2 (litToks_ne hv)
    simp only [List.map_cons, List.map_nil, joinL] at hn ⊢
    obtain ⟨m, rfl⟩ : ∃ m, n = m + 1 := ⟨n - 1, by omega⟩
    rw [parseLits, parseLit_toks hv]
    split
    · rename_i heq
      simp only [Option.some.injEq, Prod.mk.injEq] at heq
      exact absurd heq.2 (hr _)
    · rename_i heq
      simp only [Option.some.injEq, Prod.mk.injEq] at heq
      rw [heq.1, heq.2]
    · rename_i heq; cases heq
  | v :: w :: vs, _, h, n, rest, hn, hr => by
    have hv := h v (by simp)
    have h0 := List.length_pos_iff.2 (litToks_ne hv)
    have ih := parseLits_toks (vs := w :: vs) (by simp) fun x hx => h x (List.mem_cons_of_mem _ hx)
    simp only [List.map_cons, joinL, List.length_append, List.length_cons, List.length_nil, List.append_assoc, List.cons_append, List.nil_append] at hn ih ⊢
    obtain ⟨m, rfl⟩ : ∃ m, n = m + 1 := ⟨n - 1, by omega⟩
    rw [parseLits, parseLit_toks hv]
    simp only [ih m rest (by omega) hr, Option.map_some]

/-- The tokens of a test, after the column. -/
def testToks (v : Val) : Lookup → List LTok
  | .exact => [.sym '='] ++ litToks v
  | .gt => [.sym '>'] ++ litToks v
  | .gte => [.sym '>', .sym '='] ++ litToks v
  | .lt => [.sym '<'] ++ litToks v
  | .lte => [.sym '<', .sym '='] ++ litToks v
  | .oneOf vs => [.word "IN", .sym '('] ++ joinL [.sym ','] ((v :: vs).map litToks) ++ [.sym ')']
  | .between hi => [.word "BETWEEN"] ++ litToks v ++ [.word "AND"] ++ litToks hi

theorem lexO_test {b : Backend} {v : Val} {l : Lookup} (h : ∀ x ∈ v :: l.more, LitOk b x) : LexO b (" " ++ l.text (sentLit b) v) (testToks v l) := by
  have hv := lexO_lit (h v (by simp))
  have plain : ∀ (s : String) (ts : List LTok), LexC b (" " ++ s ++ " ") ts → LexO b (" " ++ (s ++ " " ++ sentLit b v)) (ts ++ litToks v) := by
    intro s ts hs
    have e : " " ++ (s ++ " " ++ sentLit b v) = " " ++ s ++ " " ++ sentLit b v := by simp only [String.append_assoc]
    rw [e]
    exact hs.appO hv
  cases l with
  | exact => exact plain "=" _ (by cases b <;> decide +kernel)
  | gt => exact plain ">" _ (by cases b <;> decide +kernel)
  | gte => exact plain ">=" _ (by cases b <;> decide +kernel)
  | lt => exact plain "<" _ (by cases b <;> decide +kernel)
  | lte => exact plain "<=" _ (by cases b <;> decide +kernel)
  | oneOf vs =>
    have h1 : LexC b " IN (" [.word "IN", .sym '('] := by cases b <;> decide +kernel
    have h2 : LexC b ")" [.sym ')'] := by cases b <;> decide +kernel
    have h3 := lexO_join (show LexC b ", " [.sym ','] by cases b <;> decide +kernel) (by decide) (sentLit b) litToks (v :: vs) (by simp) fun x hx => lexO_lit (h x hx)
    have e : " " ++ (Lookup.oneOf vs).text (sentLit b) v = " IN (" ++ joinText ", " ((v :: vs).map (sentLit b)) ++ ")" := by
      simp only [Lookup.text, ← String.append_assoc]
      rfl
    rw [e]
    exact ((h1.appO h3).appC h2 (by decide)).toO
  | between hi =>
    have h1 : LexC b " BETWEEN " [.word "BETWEEN"] := by cases b <;> decide +kernel
    have h2 : LexC b " AND " [.word "AND"] := by cases b <;> decide +kernel
    have e : " " ++ (Lookup.between hi).text (sentLit b) v = " BETWEEN " ++ sentLit b v ++ " AND " ++ sentLit b hi := by
      simp only [Lookup.text, ← String.append_assoc]
      rfl
    rw [e]
    exact ((h1.appO hv).appC h2 (by decide)).appO (lexO_lit (h hi (by simp [Lookup.more])))

theorem noBreak_test {b : Backend} {v : Val} {l : Lookup} (h : ∀ x ∈ v :: l.more, LitOk b x) : '\n' ∉ (l.text (sentLit b) v).toList := by
  have hv := noBreak_lit (h v (by simp))
  cases l with
  | oneOf vs =>
    simp only [Lookup.text, noBreak_append]
    refine ⟨⟨by decide, noBreak_join (by decide) fun x hx => ?_⟩, by decide⟩
    obtain ⟨y, hy, rfl⟩ := List.mem_map.1 hx
    exact noBreak_lit (h y hy)
  | between hi =>
    simp only [Lookup.text, noBreak_append]
    exact ⟨⟨⟨by decide, hv⟩, by decide⟩, noBreak_lit (h hi (by simp [Lookup.more]))⟩
  | _ =>
    simp only [Lookup.text, Lookup.sym, noBreak_append]
    exact ⟨by decide, hv⟩

theorem parseTest_toks {b : Backend} {c : Col} {v : Val} {l : Lookup} (h : ∀ x ∈ v :: l.more, LitOk b x) (rest : List LTok) :
    parseTest c (testToks v l ++ rest) = some (.cmp c l v, rest) := by
  have hv := h v (by simp)
  have h1 := parseLit_toks hv
  have two : ∀ x, litToks v ++ rest ≠ .sym '=' :: x := by
    intro x
    cases v with
    | null => exact absurd hv.2 (by simp)
    | int i => simp only [litToks]; split <;> simp
    | text s => simp [litToks]
  cases l with
  | exact =>
    have hl : lookupOf (.sym '=' :: (litToks v ++ rest)) = some (.exact, litToks v ++ rest) := by rw [lookupOf]
    simp only [testToks, List.cons_append, List.nil_append, parseTest, hl, h1]
  | gte =>
    have hl : lookupOf (.sym '>' :: .sym '=' :: (litToks v ++ rest)) = some (.gte, litToks v ++ rest) := by rw [lookupOf]
    simp only [testToks, List.cons_append, List.nil_append, parseTest, hl, h1]
  | lte =>
    have hl : lookupOf (.sym '<' :: .sym '=' :: (litToks v ++ rest)) = some (.lte, litToks v ++ rest) := by rw [lookupOf]
    simp only [testToks, List.cons_append, List.nil_append, parseTest, hl, h1]
  | gt =>
    have hl : lookupOf (.sym '>' :: (litToks v ++ rest)) = some (.gt, litToks v ++ rest) := by rw [lookupOf]; exact two
    simp only [testToks, List.cons_append, List.nil_append, parseTest, hl, h1]
  | lt =>
    have hl : lookupOf (.sym '<' :: (litToks v ++ rest)) = some (.lt, litToks v ++ rest) := by rw [lookupOf]; exact two
    simp only [testToks, List.cons_append, List.nil_append, parseTest, hl, h1]
  | oneOf vs =>
    have hp := parseLits_toks (vs := v :: vs) (by simp) h (joinL [LTok.sym ','] ((v :: vs).map litToks) ++ .sym ')' :: rest).length (.sym ')' :: rest)
      (by simp) (by simp)
    simp only [testToks, List.append_assoc, List.cons_append, List.nil_append, parseTest, hp]
  | between hi =>
    simp only [testToks, List.append_assoc, List.cons_append, List.nil_append, parseTest, h1,
      parseLit_toks (h hi (by simp [Lookup.more]))]

/-- The shape of the conditions that are generated: comparisons and NULL tests, joined with AND to the right, and negations of such. -/
def Filter.Shape (b : Backend) : Filter → Prop
  | .tt => False
  | .cmp c l v => QuotableName b c ∧ ∀ x ∈ v :: l.more, LitOk b x
  | .isNull c => QuotableName b c
  | .and f g => (match f with | .and .. => False | _ => True) ∧ f.Shape b ∧ g.Shape b
  | .not f => f.Shape b

/-- The tokens of a condition, without parentheses around a conjunction. -/
def Filter.toks (s : Side) (negated : Bool) : Filter → List LTok
  | .tt => []
  | .cmp c l v => refToks s c true ++ testToks v l
  | .isNull c => refToks s c true ++ [.word "IS", .word "NULL"]
  | .and f g => f.toks s negated ++ [.word "AND"] ++ g.toks s negated
  | .not f =>
    match negated, f with
    | true, .isNull c => refToks s c true ++ [.word "IS", .word "NOT", .word "NULL"]
    | _, f => [.word "NOT", .sym '('] ++ f.toks s true ++ [.sym ')']

def Filter.isAnd : Filter → Bool
  | .and .. => true
  | _ => false

theorem Filter.isNull_or (f : Filter) (neg : Bool) : (neg = true ∧ ∃ c, f = .isNull c) ∨
    ((∀ (b : Backend) (lit : Val → String) (s : Side),
      (Filter.not f).parts b lit s neg = ["NOT (" ++ joinText " AND " (f.parts b lit s true) ++ ")"]) ∧
     ∀ s, (Filter.not f).toks s neg = [.word "NOT", .sym '('] ++ f.toks s true ++ [.sym ')']) := by
  cases neg <;> cases f <;> first | exact .inr ⟨fun _ _ _ => rfl, fun _ => rfl⟩ | exact .inl ⟨rfl, _, rfl⟩

theorem joinText_append (sep : String) : ∀ {xs ys : List String}, xs ≠ [] → ys ≠ [] →
    joinText sep (xs ++ ys) = joinText sep xs ++ sep ++ joinText sep ys
  | [], _, h, _ => absurd rfl h
  | [x], [], _, h => absurd rfl h
  | [x], y :: ys, _, _ => rfl
  | x :: x' :: xs, ys, _, h => by
    have := joinText_append sep (xs := x' :: xs) (ys := ys) (by simp) h
    simp only [List.cons_append] at this ⊢
    simp only [joinText, this, String.append_assoc]

theorem Filter.parts_ne {b : Backend} {lit : Val → String} {s : Side} {f : Filter} (h : f.Shape b) (neg : Bool) : f.parts b lit s neg ≠ [] := by
  induction f generalizing neg with
  | tt => cases h
  | cmp c l v => simp [Filter.parts]
  | isNull c => simp [Filter.parts]
  | and f g ih1 ih2 => simp [Filter.parts, ih1 h.2.1]
  | not f ih =>
    rcases f.isNull_or neg with ⟨rfl, c, rfl⟩ | ⟨h1, _⟩
    · simp [Filter.parts]
    · simp [h1]

theorem lexO_conds {D : Dialect} (s : Side) {f : Filter} (h : f.Shape D.backend) (neg : Bool) :
    LexO D.backend (joinText " AND " (f.parts D.backend (sentLit D.backend) s neg)) (f.toks s neg) := by
  induction f generalizing neg with
  | tt => cases h
  | cmp c l v =>
    have h1 := lexO_ref (D := D) (s := s) (c := c) (q := true) h.1
    have h2 := h1.appO (lexO_test h.2) (startsSep_append (by decide))
    have e : joinText " AND " ((Filter.cmp c l v).parts D.backend (sentLit D.backend) s neg) =
        refText D.backend s c true ++ (" " ++ l.text (sentLit D.backend) v) := by
      simp only [Filter.parts, joinText, String.append_assoc]
    rw [e]
    exact h2
  | isNull c =>
    have h1 := lexO_ref (D := D) (s := s) (c := c) (q := true) h
    have h2 : LexO D.backend " IS NULL" [.word "IS", .word "NULL"] := by
      rw [show (" IS NULL" : String) = " IS " ++ "NULL" by decide]
      exact (show LexC D.backend " IS " [.word "IS"] by cases D.backend <;> decide +kernel).appO (lexO_word _ (s := "NULL") ⟨by decide, by decide⟩)
    exact h1.appO h2 (by decide)
  | and f g ih1 ih2 =>
    have hA : LexC D.backend " AND " [.word "AND"] := by cases D.backend <;> decide +kernel
    simp only [Filter.parts, Filter.toks]
    rw [joinText_append _ (Filter.parts_ne h.2.1 neg) (Filter.parts_ne h.2.2 neg)]
    exact ((ih1 h.2.1 neg).appC hA (by decide)).appO (ih2 h.2.2 neg)
  | not f ih =>
    rcases f.isNull_or neg with ⟨rfl, c, rfl⟩ | ⟨h1, h2⟩
    · have h1 := lexO_ref (D := D) (s := s) (c := c) (q := true) h
      have h2 : LexO D.backend " IS NOT NULL" [.word "IS", .word "NOT", .word "NULL"] := by
        rw [show (" IS NOT NULL" : String) = " IS NOT " ++ "NULL" by decide]
        exact (show LexC D.backend " IS NOT " [.word "IS", .word "NOT"] by cases D.backend <;> decide +kernel).appO
          (lexO_word _ (s := "NULL") ⟨by decide, by decide⟩)
      exact h1.appO h2 (by decide)
    · rw [h1, h2]
      have hl : LexC D.backend "NOT (" [.word "NOT", .sym '('] := by cases D.backend <;> decide +kernel
      have hr : LexC D.backend ")" [.sym ')'] := by cases D.backend <;> decide +kernel
      exact ((hl.appO (ih h true)).appC hr (by decide)).toO

theorem noBreak_conds {D : Dialect} (s : Side) {f : Filter} (h : f.Shape D.backend) (neg : Bool) :
    ∀ p ∈ f.parts D.backend (sentLit D.backend) s neg, '\n' ∉ p.toList := by
  induction f generalizing neg with
  | tt => cases h
  | cmp c l v =>
    simp only [Filter.parts, List.mem_singleton, forall_eq, noBreak_append, and_assoc]
    exact ⟨noBreak_ref (D := D) (q := true) h.1, by decide, noBreak_test h.2⟩
  | isNull c =>
    simp only [Filter.parts, List.mem_singleton, forall_eq, noBreak_append]
    exact ⟨noBreak_ref (D := D) (q := true) h, by decide⟩
  | and f g ih1 ih2 =>
    intro p hp
    rcases List.mem_append.1 hp with hp | hp
    · exact ih1 h.2.1 neg p hp
    · exact ih2 h.2.2 neg p hp
  | not f ih =>
    rcases f.isNull_or neg with ⟨rfl, c, rfl⟩ | ⟨h1, h2⟩
    · simp only [Filter.parts, List.mem_singleton, forall_eq, noBreak_append]
      exact ⟨noBreak_ref (D := D) (q := true) h, by decide⟩
    · simp only [h1, List.mem_singleton, forall_eq, noBreak_append]
      exact ⟨⟨by decide, noBreak_join (by decide) (ih h true)⟩, by decide⟩

theorem Filter.parts_single {b : Backend} {lit : Val → String} {s : Side} {f : Filter} (h : f.Shape b) (neg : Bool) (ha : f.isAnd = false) :
    ∃ p, f.parts b lit s neg = [p] := by
  cases f with
  | tt => cases h
  | cmp c l v => exact ⟨_, rfl⟩
  | isNull c => exact ⟨_, rfl⟩
  | and f g => cases ha
  | not f =>
    rcases f.isNull_or neg with ⟨rfl, c, rfl⟩ | ⟨h1, h2⟩
    · exact ⟨_, rfl⟩
    · exact ⟨_, h1 b lit s⟩

/-- The tokens of a guard. -/
def Filter.guardToks (s : Side) (f : Filter) : List LTok := if f.isAnd then [.sym '('] ++ f.toks s false ++ [.sym ')'] else f.toks s false

theorem Filter.text_eq {b : Backend} {lit : Val → String} {s : Side} {f : Filter} (h : f.Shape b) :
    f.text b lit s = if f.isAnd then "(" ++ joinText " AND " (f.parts b lit s false) ++ ")" else joinText " AND " (f.parts b lit s false) := by
  cases ha : f.isAnd with
  | false =>
    obtain ⟨p, hp⟩ := Filter.parts_single (lit := lit) (s := s) h false ha
    simp [Filter.text, hp, joinText]
  | true =>
    cases f with
    | and f g =>
      obtain ⟨x, xs, hx⟩ := List.exists_cons_of_ne_nil (Filter.parts_ne (lit := lit) (s := s) h.2.1 false)
      obtain ⟨y, ys, hy⟩ := List.exists_cons_of_ne_nil (Filter.parts_ne (lit := lit) (s := s) h.2.2 false)
      simp only [Filter.text, Filter.parts, hx, hy, if_true]
      cases xs <;> rfl
    | _ => cases ha

theorem lexO_guard {D : Dialect} (s : Side) {f : Filter} (h : f.Shape D.backend) :
    LexO D.backend (f.text D.backend (sentLit D.backend) s) (f.guardToks s) := by
  rw [Filter.text_eq h, Filter.guardToks]
  have hc := lexO_conds s h false
  split
  · have hl : LexC D.backend "(" [.sym '('] := by cases D.backend <;> decide +kernel
    have hr : LexC D.backend ")" [.sym ')'] := by cases D.backend <;> decide +kernel
    exact ((hl.appO hc).appC hr (by decide)).toO
  · exact hc

theorem noBreak_guard {D : Dialect} (s : Side) {f : Filter} (h : f.Shape D.backend) :
    '\n' ∉ (f.text D.backend (sentLit D.backend) s).toList := by
  rw [Filter.text_eq h]
  have hc := noBreak_join (sep := " AND ") (by decide) (noBreak_conds s h false)
  split
  · simp only [noBreak_append]
    exact ⟨⟨by decide, hc⟩, by decide⟩
  · exact hc

/-! ### Parsing them -/

theorem parse_conds {D : Dialect} (s : Side) {f : Filter} (h : f.Shape D.backend) (neg : Bool) :
    (f.isAnd = false → ∀ n rest, (f.toks s neg).length ≤ n → parseCond D s n (f.toks s neg ++ rest) = some (f, rest)) ∧
    (∀ n rest, (f.toks s neg).length + 1 ≤ n → (∀ r, rest ≠ .word "AND" :: r) → parseConds D s n (f.toks s neg ++ rest) = some (f, rest)) := by
  have single : ∀ (f : Filter) (neg : Bool),
      (∀ n rest, (f.toks s neg).length ≤ n → parseCond D s n (f.toks s neg ++ rest) = some (f, rest)) →
      ∀ n rest, (f.toks s neg).length + 1 ≤ n → (∀ r, rest ≠ .word "AND" :: r) → parseConds D s n (f.toks s neg ++ rest) = some (f, rest) := by
    intro f neg hf n rest hn hr
    obtain ⟨m, rfl⟩ : ∃ m, n = m + 1 := ⟨n - 1, by omega⟩
    rw [parseConds, hf m rest (by omega)]
    split
    · rename_i heq
      simp only [Option.some.injEq, Prod.mk.injEq] at heq
      exact absurd heq.2 (hr _)
    · rfl
  have side : ∀ (ts : List LTok) (n : Nat) (c : Col), QuotableName D.backend c → parseCond D s (n + 1) (refToks s c true ++ ts) = parseTest c ts := by
    intro ts n c hc
    have h := parseRef_toks (D := D) (s := s) (c := c) (q := true) hc ts
    cases s
    · simp only [refToks, List.cons_append, Side.str] at h ⊢
      rw [parseCond]
      · simp only [h, if_true]
      · simp
      · simp
    · simp only [refToks, List.cons_append, Side.str] at h ⊢
      rw [parseCond]
      · simp only [h, if_true]
      · simp
      · simp
  induction f generalizing neg with
  | tt => cases h
  | cmp c l v =>
    have a : ∀ n rest, ((Filter.cmp c l v).toks s neg).length ≤ n →
        parseCond D s n ((Filter.cmp c l v).toks s neg ++ rest) = some (.cmp c l v, rest) := by
      intro n rest hn
      simp only [Filter.toks, refToks, List.length_append, List.length_cons] at hn
      obtain ⟨m, rfl⟩ : ∃ m, n = m + 1 := ⟨n - 1, by omega⟩
      simp only [Filter.toks, List.append_assoc]
      rw [side _ _ _ h.1]
      exact parseTest_toks h.2 rest
    exact ⟨fun _ => a, single _ neg a⟩
  | isNull c =>
    have a : ∀ n rest, ((Filter.isNull c).toks s neg).length ≤ n →
        parseCond D s n ((Filter.isNull c).toks s neg ++ rest) = some (.isNull c, rest) := by
      intro n rest hn
      simp only [Filter.toks, refToks, List.length_append, List.length_cons] at hn
      obtain ⟨m, rfl⟩ : ∃ m, n = m + 1 := ⟨n - 1, by omega⟩
      simp only [Filter.toks, List.append_assoc]
      rw [side _ _ _ h]
      rfl
    exact ⟨fun _ => a, single _ neg a⟩
  | and f g ih1 ih2 =>
    refine ⟨fun ha => (by cases ha), fun n rest hn hr => ?_⟩
    have hfa : f.isAnd = false := by
      have := h.1
      cases f <;> simp_all [Filter.isAnd]
    have h1 := (ih1 h.2.1 neg).1 hfa
    have h2 := (ih2 h.2.2 neg).2
    simp only [Filter.toks, List.length_append, List.length_cons, List.length_nil] at hn
    obtain ⟨m, rfl⟩ : ∃ m, n = m + 1 := ⟨n - 1, by omega⟩
    simp only [Filter.toks, List.append_assoc, List.cons_append, List.nil_append]
    rw [parseConds, h1 m _ (by omega)]
    simp only [h2 m rest (by omega) hr]
  | not f ih =>
    have a : ∀ n rest, ((Filter.not f).toks s neg).length ≤ n →
        parseCond D s n ((Filter.not f).toks s neg ++ rest) = some (.not f, rest) := by
      rcases f.isNull_or neg with ⟨rfl, c, rfl⟩ | ⟨_, h2⟩
      · intro n rest hn
        simp only [Filter.toks, refToks, List.length_append, List.length_cons] at hn
        obtain ⟨m, rfl⟩ : ∃ m, n = m + 1 := ⟨n - 1, by omega⟩
        simp only [Filter.toks, List.append_assoc]
        rw [side _ _ _ h]
        rfl
      · rw [h2]
        intro n rest hn
        simp only [List.length_append, List.length_cons, List.length_nil] at hn
        obtain ⟨m, rfl⟩ : ∃ m, n = m + 1 := ⟨n - 1, by omega⟩
        simp only [List.append_assoc, List.cons_append, List.nil_append]
        rw [parseCond, (ih h true).2 m _ (by omega) (by simp)]
        rfl
    exact ⟨fun _ => a, single _ neg a⟩

theorem parse_guard {D : Dialect} (s : Side) {f : Filter} (h : f.Shape D.backend) (n : Nat) (rest : List LTok) (hn : (f.guardToks s).length ≤ n) :
    parseCond D s n (f.guardToks s ++ rest) = some (f, rest) := by
  have hc := parse_conds s h false
  unfold Filter.guardToks at hn ⊢
  cases ha : f.isAnd with
  | false =>
    simp only [ha, Bool.false_eq_true, if_false] at hn ⊢
    exact hc.1 ha n rest hn
  | true =>
    simp only [ha, if_true, List.length_append, List.length_cons, List.length_nil] at hn ⊢
    obtain ⟨m, rfl⟩ : ∃ m, n = m + 1 := ⟨n - 1, by omega⟩
    simp only [List.append_assoc, List.cons_append, List.nil_append]
    rw [parseCond, hc.2 m _ (by omega) (by simp)]
    rfl

theorem toks_side {b : Backend} (s : Side) {f : Filter} (h : f.Shape b) (neg : Bool) (rest : List LTok) :
    (f.toks s neg ++ rest).findSome? tokSide = some s := by
  have hs : ∀ (c : Col) (ts : List LTok), (refToks s c true ++ ts).findSome? tokSide = some s := by
    intro c ts
    cases s <;> rfl
  induction f generalizing neg rest with
  | tt => cases h
  | cmp c l v => simp only [Filter.toks, List.append_assoc]; exact hs _ _
  | isNull c => simp only [Filter.toks, List.append_assoc]; exact hs _ _
  | and f g ih1 _ => simp only [Filter.toks, List.append_assoc]; exact ih1 h.2.1 _ _
  | not f ih =>
    rcases f.isNull_or neg with ⟨rfl, c, rfl⟩ | ⟨_, h2⟩
    · simp only [Filter.toks, List.append_assoc]; exact hs _ _
    · rw [h2]
      simp only [List.append_assoc]
      have := ih h true ([.sym ')'] ++ rest)
      exact this

theorem guard_side {b : Backend} (s : Side) {f : Filter} (h : f.Shape b) (rest : List LTok) :
    (f.guardToks s ++ rest).findSome? tokSide = some s := by
  unfold Filter.guardToks
  split
  · simp only [List.append_assoc]
    have := toks_side s h false ([.sym ')'] ++ rest)
    exact this
  · exact toks_side s h false rest

end Denorm
