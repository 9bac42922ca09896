import Verif.Spec.SqlText
/-!
# Lexing text that is put together from pieces
-/
namespace Denorm

theorem lexRun_append (b : Backend) (st : LexSt) (xs ys : List Char) :
    lexRun b st (xs ++ ys) = ((lexRun b (lexRun b st xs).1 ys).1, (lexRun b st xs).2 ++ (lexRun b (lexRun b st xs).1 ys).2) := by
  induction xs generalizing st with
  | nil => simp [lexRun]
  | cons x xs ih => simp [lexRun, ih]

/-- The text is lexed as these tokens and ends between tokens. -/
def LexC (b : Backend) (s : String) (ts : List LTok) : Prop := lexRun b .idle s.toList = (.idle, ts)

instance (b : Backend) (s : String) (ts : List LTok) : Decidable (LexC b s ts) := inferInstanceAs (Decidable (_ = _))

/-- The character can follow a word or a string literal. -/
def isSepChar (c : Char) : Bool := !isWordChar c && c != '\''

theorem isSepChar_iff {c : Char} : isSepChar c = true ↔ isWordChar c = false ∧ c ≠ '\'' := by
  simp [isSepChar]

/-- The text is lexed as these tokens if something follows that cannot belong to a word or string literal. -/
def LexO (b : Backend) (s : String) (ts : List LTok) : Prop :=
  ∀ c cs, isSepChar c = true →
    lexRun b .idle (s.toList ++ c :: cs) = ((lexRun b .idle (c :: cs)).1, ts ++ (lexRun b .idle (c :: cs)).2)

/-- The text begins with something that cannot belong to a word or string literal. -/
def startsSep (s : String) : Bool :=
  match s.toList with
  | c :: _ => isSepChar c
  | [] => false

theorem LexC.toO {b : Backend} {s : String} {ts : List LTok} (h : LexC b s ts) : LexO b s ts := by
  intro c cs _
  rw [lexRun_append, h]

theorem LexC.appC {b : Backend} {s u : String} {ts us : List LTok} (h : LexC b s ts) (h' : LexC b u us) : LexC b (s ++ u) (ts ++ us) := by
  unfold LexC at *
  rw [String.toList_append, lexRun_append, h, h']

theorem LexC.appO {b : Backend} {s u : String} {ts us : List LTok} (h : LexC b s ts) (h' : LexO b u us) : LexO b (s ++ u) (ts ++ us) := by
  intro c cs hc
  rw [String.toList_append, List.append_assoc, lexRun_append, h, h' c cs hc]
  simp

theorem startsSep_iff {s : String} : startsSep s = true ↔ ∃ c cs, s.toList = c :: cs ∧ isSepChar c = true := by
  unfold startsSep
  cases h : s.toList <;> simp

theorem LexO.appC {b : Backend} {s u : String} {ts us : List LTok} (h : LexO b s ts) (h' : LexC b u us) (hu : startsSep u = true) :
    LexC b (s ++ u) (ts ++ us) := by
  obtain ⟨c, cs, e, hc⟩ := startsSep_iff.1 hu
  unfold LexC at *
  rw [String.toList_append, e, h c cs hc, ← e, h']

theorem LexO.appO {b : Backend} {s u : String} {ts us : List LTok} (h : LexO b s ts) (h' : LexO b u us) (hu : startsSep u = true) :
    LexO b (s ++ u) (ts ++ us) := by
  obtain ⟨c, cs, e, hc⟩ := startsSep_iff.1 hu
  intro c' cs' hc'
  have h1 := h c (cs ++ c' :: cs') hc
  have h2 := h' c' cs' hc'
  rw [e, List.cons_append] at h2
  rw [String.toList_append, e, List.append_assoc, List.cons_append, h1, h2]
  simp

theorem startsSep_append {s u : String} (h : startsSep s = true) : startsSep (s ++ u) = true := by
  obtain ⟨c, cs, e, hc⟩ := startsSep_iff.1 h
  exact startsSep_iff.2 ⟨c, cs ++ u.toList, by simp [e], hc⟩

theorem LexC.nil (b : Backend) : LexC b "" [] := rfl

/-! ## Words and names -/

theorem lexRun_word (b : Backend) (acc w cs : List Char) (c : Char) (hw : w.all isWordChar = true) (hc : isWordChar c = false) :
    lexRun b (.word acc) (w ++ c :: cs) =
      ((lexRun b .idle (c :: cs)).1, .word (String.ofList (acc ++ w)) :: (lexRun b .idle (c :: cs)).2) := by
  induction w generalizing acc with
  | nil => simp [lexRun, lexStep, hc]
  | cons x w ih =>
    simp only [List.all_cons, Bool.and_eq_true] at hw
    simp only [List.cons_append, lexRun, lexStep, hw.1, if_true]
    rw [ih _ hw.2]
    simp [lexRun, lexStep]

theorem lexO_word (b : Backend) {s : String} (h : WordText s) : LexO b s [.word s] := by
  intro c cs hc
  replace hc := (isSepChar_iff.1 hc).1
  obtain ⟨hne, hw⟩ := h
  cases e : s.toList with
  | nil => exact absurd (by rw [← String.ofList_toList (s := s), e]) hne
  | cons x w =>
    rw [e] at hw
    simp only [List.all_cons, Bool.and_eq_true] at hw
    rw [List.cons_append]
    have h1 := lexRun_word b [x] w cs c hw.2 hc
    simp only [lexRun, lexStep, lexStart, hw.1, if_true] at h1 ⊢
    rw [h1]
    simp [← e, String.ofList_toList]

theorem noDollars_pair : ∀ (l w : List Char), noDollars (l ++ '$' :: '$' :: w) = false
  | [], w => rfl
  | x :: l, w => by
    rw [List.cons_append]
    unfold noDollars
    split
    · rfl
    · rename_i e
      simp only [List.cons.injEq] at e
      rw [← e.2]
      exact noDollars_pair l w
    · rename_i e; cases e

theorem noDollars_free : ∀ {l : List Char}, '$' ∉ l → noDollars l = true
  | [], _ => rfl
  | x :: l, h => by
    simp only [List.mem_cons, not_or] at h
    unfold noDollars
    split
    · rename_i e
      simp only [List.cons.injEq] at e
      exact absurd e.1.symm h.1
    · rename_i e
      simp only [List.cons.injEq] at e
      rw [← e.2]
      exact noDollars_free h.2
    · rfl

theorem endsBody_false {b : Backend} {acc w : List Char} {c : Char} (h : b = .postgresql → noDollars (acc ++ c :: w) = true) : endsBody b acc c = false := by
  cases hb : endsBody b acc c with
  | false => rfl
  | true =>
    simp only [endsBody, Bool.and_eq_true, beq_iff_eq] at hb
    obtain ⟨⟨h1, h2⟩, h3⟩ := hb
    obtain ⟨l, rfl⟩ := List.getLast?_eq_some_iff.1 h3
    have := h h1
    rw [h2, List.append_assoc, List.singleton_append, noDollars_pair] at this
    exact absurd this (by decide)

theorem lexRun_quote (b : Backend) (acc w : List Char) (hw : nameQuote b ∉ w) (hd : b = .postgresql → noDollars (acc ++ w) = true) :
    lexRun b (.quote acc) (w ++ [nameQuote b]) = (.idle, [.quoted (String.ofList (acc ++ w))]) := by
  induction w generalizing acc with
  | nil => simp [lexRun, lexStep]
  | cons x w ih =>
    simp only [List.mem_cons, not_or] at hw
    simp only [List.cons_append, lexRun, lexStep, Ne.symm hw.1, if_false, endsBody_false hd, Bool.false_eq_true]
    rw [ih _ hw.2 (by simpa using hd)]
    simp

theorem qn_toList (b : Backend) (n : String) : (qn b n).toList = nameQuote b :: (n.toList ++ [nameQuote b]) := by
  cases b <;> simp [qn, nameQuote]

theorem quote_not_word (b : Backend) : isWordChar (nameQuote b) = false := by cases b <;> decide

theorem quote_sep (b : Backend) : isSepChar (nameQuote b) = true := by cases b <;> decide

theorem lexC_qn {b : Backend} {n : String} (h : QuotableName b n) : LexC b (qn b n) [.quoted n] := by
  unfold LexC
  rw [qn_toList]
  simp only [lexRun, lexStep, lexStart, quote_not_word, Bool.false_eq_true, if_false, if_true]
  rw [lexRun_quote b [] _ h.1 h.2.2.2]
  simp [String.ofList_toList]

theorem startsSep_qn (b : Backend) (n : String) : startsSep (qn b n) = true :=
  startsSep_iff.2 ⟨_, _, qn_toList b n, quote_sep b⟩

theorem wordText_nat (n : Nat) : WordText (toString n) := by
  have hr : toString n = Nat.repr n := rfl
  constructor
  · intro h
    have h0 := Nat.length_repr_pos (n := n)
    rw [← hr, h] at h0
    revert h0; decide
  · rw [List.all_eq_true]
    intro c hc
    rw [hr, Nat.repr, String.toList_ofList] at hc
    have := Nat.isDigit_of_mem_toDigits (by decide) (by decide) hc
    simp [isWordChar, Char.isAlphanum, this]

theorem numOf_nat (n : Nat) : numOf (.word (toString n)) = some n := by
  have hr : toString n = Nat.repr n := rfl
  have h : Nat.ofDigitChars 10 (Nat.repr n).toList 0 = n := by
    rw [Nat.repr, String.toList_ofList, Nat.ofDigitChars_ten_toDigits]
  simp only [numOf, hr, h, if_true]

theorem lexO_nat (b : Backend) (n : Nat) : LexO b (toString n) [.word (toString n)] := lexO_word b (wordText_nat n)

/-! ## Lists joined with a separator -/

/-- `sep.join(parts)`, as tokens. -/
def joinL (sep : List LTok) : List (List LTok) → List LTok
  | [] => []
  | [p] => p
  | p :: q :: ps => p ++ sep ++ joinL sep (q :: ps)

theorem lexO_join {b : Backend} {sep : String} {ts : List LTok} (hs : LexC b sep ts) (hsep : startsSep sep = true) {α : Type _} (f : α → String)
    (g : α → List LTok) : ∀ (l : List α), l ≠ [] → (∀ x ∈ l, LexO b (f x) (g x)) → LexO b (joinText sep (l.map f)) (joinL ts (l.map g))
  | [], h, _ => absurd rfl h
  | [x], _, h => h x (by simp)
  | x :: y :: l, _, h => by
    have h1 := h x (by simp)
    have h2 := lexO_join hs hsep f g (y :: l) (by simp) (fun z hz => h z (List.mem_cons_of_mem _ hz))
    exact (h1.appC hs hsep).appO h2

theorem lexC_join {b : Backend} {sep : String} {ts : List LTok} (hs : LexC b sep ts) {α : Type _} (f : α → String)
    (g : α → List LTok) : ∀ (l : List α), (∀ x ∈ l, LexC b (f x) (g x)) → LexC b (joinText sep (l.map f)) (joinL ts (l.map g))
  | [], _ => rfl
  | [x], h => h x (by simp)
  | x :: y :: l, h => by
    have h1 := h x (by simp)
    have h2 := lexC_join hs f g (y :: l) (fun z hz => h z (List.mem_cons_of_mem _ hz))
    exact (h1.appC hs).appC h2

/-! ## Line breaks -/

theorem reindent_append (sep s u : String) : reindent sep (s ++ u) = reindent sep s ++ reindent sep u := by
  simp [reindent, String.ofList_append]

theorem reindent_id {sep s : String} (h : '\n' ∉ s.toList) : reindent sep s = s := by
  have : ∀ l : List Char, '\n' ∉ l → (l.flatMap fun c => if c = '\n' then sep.toList else [c]) = l := by
    intro l
    induction l with
    | nil => intro _; rfl
    | cons x l ih =>
      intro h
      simp only [List.mem_cons, not_or] at h
      simp [Ne.symm h.1, ih h.2]
  rw [reindent, this _ h, String.ofList_toList]

theorem WordText.noBreak {s : String} (h : WordText s) : '\n' ∉ s.toList := by
  intro hm
  have := List.all_eq_true.1 h.2 _ hm
  revert this; decide

theorem noBreak_append {s u : String} : '\n' ∉ (s ++ u).toList ↔ '\n' ∉ s.toList ∧ '\n' ∉ u.toList := by simp

theorem noBreak_qn {b : Backend} {n : String} (h : '\n' ∉ n.toList) : '\n' ∉ (qn b n).toList := by
  rw [qn_toList]
  simp only [List.mem_cons, List.mem_append, List.not_mem_nil, or_false, not_or]
  have : '\n' ≠ nameQuote b := by cases b <;> decide
  exact ⟨this, h, this⟩

theorem noBreak_join {sep : String} (hs : '\n' ∉ sep.toList) : ∀ {l : List String}, (∀ x ∈ l, '\n' ∉ x.toList) → '\n' ∉ (joinText sep l).toList
  | [], _ => by simp [joinText]
  | [x], h => h x (by simp)
  | x :: y :: l, h => by
    rw [joinText, noBreak_append, noBreak_append]
    exact ⟨⟨h x (by simp), hs⟩, noBreak_join hs fun z hz => h z (List.mem_cons_of_mem _ hz)⟩

end Denorm
