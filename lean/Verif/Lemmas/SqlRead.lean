import Verif.Lemmas.SqlActions
/-!
# Reading the actions of a trigger
-/
namespace Denorm

/-! ## The last character -/

/-- The text ends with something else than a semicolon. -/
def EndsOk (s : String) : Prop := ∃ c, s.toList.getLast? = some c ∧ c ≠ ';'

theorem EndsOk.app {s u : String} (h : EndsOk u) : EndsOk (s ++ u) := by
  obtain ⟨c, h1, h2⟩ := h
  refine ⟨c, ?_, h2⟩
  rw [String.toList_append, List.getLast?_append, h1]
  rfl

theorem EndsOk.word {s : String} (h : WordText s) : EndsOk s := by
  cases e : s.toList.getLast? with
  | none =>
    rw [List.getLast?_eq_none_iff] at e
    exact absurd (by rw [← String.ofList_toList (s := s), e]) h.1
  | some c =>
    refine ⟨c, e, ?_⟩
    have := List.all_eq_true.1 h.2 c (List.mem_of_getLast? e)
    rintro rfl
    revert this; decide

theorem EndsOk.qn (b : Backend) (n : String) : EndsOk (qn b n) := by
  refine ⟨nameQuote b, ?_, by cases b <;> decide⟩
  rw [qn_toList, ← List.cons_append, List.getLast?_concat]

theorem EndsOk.ref {D : Dialect} {s : Side} {c : Col} {q : Bool} (h : FitName D q c) : EndsOk (refText D.backend s c q) := by
  unfold refText
  refine EndsOk.app ?_
  cases q
  · exact EndsOk.word (PlainName.word h)
  · exact EndsOk.qn _ _

theorem EndsOk.join {sep : String} : ∀ {l : List String}, l ≠ [] → (∀ x ∈ l, EndsOk x) → EndsOk (joinText sep l)
  | [], h, _ => absurd rfl h
  | [x], _, h => h x (by simp)
  | x :: y :: l, _, h => EndsOk.app (EndsOk.join (by simp) fun z hz => h z (List.mem_cons_of_mem _ hz))

theorem EndsOk.lit {b : Backend} {v : Val} (h : LitOk b v) : EndsOk (sentLit b v) := by
  obtain ⟨hb, hv⟩ := h
  cases v with
  | null => cases hv
  | int i =>
    have : sentLit b (.int i) = toString i := by cases b <;> first | rfl | exact absurd rfl hb
    rw [this]
    cases i with
    | ofNat n => exact EndsOk.word (wordText_nat n)
    | negSucc n =>
      have : toString (Int.negSucc n) = "-" ++ toString (n + 1) := rfl
      rw [this]
      exact EndsOk.app (EndsOk.word (wordText_nat _))
  | text s =>
    have : sentLit b (.text s) = "'" ++ escapeText b s ++ "'" := by cases b <;> first | rfl | exact absurd rfl hb
    rw [this]
    exact EndsOk.app ⟨'\'', rfl, by decide⟩

theorem EndsOk.parts {D : Dialect} {lit : Val → String} (hl : ∀ v, LitOk D.backend v → EndsOk (lit v)) {s : Side} {f : Filter} (h : f.Shape D.backend)
    (neg : Bool) : ∀ p ∈ f.parts D.backend lit s neg, EndsOk p := by
  induction f generalizing neg with
  | tt => cases h
  | cmp c l v =>
    simp only [Filter.parts, List.mem_singleton, forall_eq]
    refine EndsOk.app ?_
    cases l with
    | oneOf vs => exact EndsOk.app ⟨')', rfl, by decide⟩
    | between hi => exact EndsOk.app (hl _ (h.2 hi (by simp [Lookup.more])))
    | _ => exact EndsOk.app (hl _ (h.2 v (by simp)))
  | isNull c =>
    simp only [Filter.parts, List.mem_singleton, forall_eq]
    exact EndsOk.app ⟨'L', rfl, by decide⟩
  | and f g ih1 ih2 =>
    intro p hp
    rcases List.mem_append.1 hp with hp | hp
    · exact ih1 h.2.1 neg p hp
    · exact ih2 h.2.2 neg p hp
  | not f ih =>
    rcases f.isNull_or neg with ⟨rfl, c, rfl⟩ | ⟨h1, h2⟩
    · simp only [Filter.parts, List.mem_singleton, forall_eq]
      exact EndsOk.app ⟨'L', rfl, by decide⟩
    · simp only [h1, List.mem_singleton, forall_eq]
      exact EndsOk.app ⟨')', rfl, by decide⟩

theorem EndsOk.guard {D : Dialect} {lit : Val → String} (hl : ∀ v, LitOk D.backend v → EndsOk (lit v)) {g : Guard} (h : GuardFit D g) :
    EndsOk (g.text D.backend lit) := by
  cases g with
  | filter s f =>
    rw [Guard.text, Filter.text_eq h]
    split
    · exact EndsOk.app ⟨')', rfl, by decide⟩
    · exact EndsOk.join (Filter.parts_ne h false) (EndsOk.parts hl h false)
  | someRow => cases h

theorem EndsOk.action {D : Dialect} {lit : Val → String} (hl : ∀ v, LitOk D.backend v → EndsOk (lit v)) {a : Action} (h : ActionFit D a) :
    EndsOk (a.text D.backend lit) := by
  have post : ∀ (b : Backend) (s : String), EndsOk s → EndsOk (s ++ insertPost b) := by
    intro b s hs
    cases b
    · simpa [insertPost] using hs
    · simpa [insertPost] using hs
    · exact EndsOk.app ⟨'D', by decide +kernel, by decide⟩
  cases a with
  | markValues ct s c q =>
    rw [Action.text, insertText_values]
    exact post _ _ (EndsOk.app (EndsOk.app ⟨')', rfl, by decide⟩))
  | markSelect ct sel t k s c q =>
    rw [Action.text, insertText_select]
    refine post _ _ (EndsOk.app ?_)
    cases hb : D.backend
    · exact EndsOk.app (hb ▸ EndsOk.ref (D := D) (q := true) h.2.2.2)
    · exact EndsOk.app ⟨')', rfl, by decide⟩
    · exact EndsOk.app ⟨')', rfl, by decide⟩
  | update u =>
    obtain ⟨h1, h2, h3, h4, h5⟩ := h
    refine EndsOk.app (EndsOk.join (by simp) ?_)
    intro x hx
    rcases List.mem_cons.1 hx with rfl | hx
    · cases hk : u.key with
      | eq k s c => rw [hk] at h4; exact EndsOk.app (EndsOk.ref (D := D) (q := true) h4.2)
      | inSelect k sel t wk s c => exact EndsOk.app ⟨')', rfl, by decide⟩
    · obtain ⟨g, hg, rfl⟩ := List.mem_map.1 hx
      exact EndsOk.guard hl (h5 g hg)

/-! ## Parsing an action -/

theorem parseTerm_toks {D : Dialect} {t : Term} (h : TermFit D t) (rest : List LTok) : parseTerm D (termToks t ++ rest) = some (t, rest) := by
  cases t with
  | one => rfl
  | ref s c =>
    have := parseRef_toks (D := D) (s := s) (c := c) (q := true) h rest
    simp only [termToks]
    cases s <;> simp only [refToks, List.cons_append, List.nil_append, Side.str] at this ⊢ <;> rw [parseTerm] <;> simp [this]
  | scalar => cases h

theorem stripPrefix_self (ps ts : List LTok) : stripPrefix ps (ps ++ ts) = some ts := by
  induction ps with
  | nil => rfl
  | cons p ps ih => simp [stripPrefix, ih]

theorem parseSet_toks {D : Dialect} {col : Col} {e : SetExpr} (h : SetFit D e) (rest : List LTok) :
    parseSet D col (setToks D.backend col e ++ rest) = some (e, rest) := by
  have no : ∀ ts, stripPrefix (randomToks D.backend) (.quoted col :: ts) = none := by
    intro ts
    cases D.backend <;> simp [randomToks, stripPrefix]
  cases e with
  | random => simp [parseSet, setToks, stripPrefix_self]
  | plus t =>
    have := parseTerm_toks h rest
    simp only [parseSet, setToks, List.cons_append, List.nil_append, no, ident_quoted, this, if_true]
  | minus t =>
    have := parseTerm_toks h rest
    simp only [parseSet, setToks, List.cons_append, List.nil_append, no, ident_quoted, this, if_true]
    rfl

theorem parseKey_toks {D : Dialect} {k : Key} (h : KeyFit D k) (rest : List LTok) : parseKey D (keyToks k ++ rest) = some (k, rest) := by
  cases k with
  | eq k s c =>
    have := parseRef_toks (D := D) (s := s) (c := c) (q := true) h.2 rest
    simp only [keyToks, List.cons_append, List.nil_append, parseKey, ident_quoted, this]
  | inSelect k sel t wk s c =>
    obtain ⟨h1, h2, h3, h4, h5⟩ := h
    have := parseFrom_toks (s := s) h3 h4 h5 (.sym ')' :: rest)
    simp only [keyToks, List.append_assoc, List.cons_append, List.nil_append, parseKey, h1.ident, h2.ident, this]

theorem parseGuards_toks {D : Dialect} {gs : List Guard} (h : ∀ g ∈ gs, GuardFit D g) (rest : List LTok) :
    ∀ (n m : Nat), gs.length ≤ n → (∀ g ∈ gs, (guardToks g).length ≤ m) →
      parseGuards D n m (gs.flatMap (fun g => .word "AND" :: guardToks g) ++ .sym ';' :: rest) = some (gs, .sym ';' :: rest) := by
  induction gs with
  | nil => intro n m _ _; cases n <;> rfl
  | cons g gs ih =>
    intro n m hn hm
    simp only [List.length_cons] at hn
    obtain ⟨k, rfl⟩ : ∃ k, n = k + 1 := ⟨n - 1, by omega⟩
    have h1 := h g (List.mem_cons_self ..)
    have h2 := hm g (List.mem_cons_self ..)
    have h3 := ih (fun g hg => h g (List.mem_cons_of_mem _ hg)) k m (by omega) (fun g hg => hm g (List.mem_cons_of_mem _ hg))
    cases g with
    | filter s f =>
      have hg : guardToks (.filter s f) = f.guardToks s := rfl
      rw [hg] at h2
      simp only [List.flatMap_cons, List.cons_append, List.append_assoc, parseGuards]
      rw [hg, guard_side s h1]
      simp only [parse_guard s h1 m _ h2, h3, Option.map_some]
    | someRow => cases h1

theorem parseInsert_toks {D : Dialect} (hD : DialectOk D) (ts : List LTok) : parseInsert D (dirtyToks ++ ts) = parseRows D ts := by
  obtain ⟨h1, h2, h3⟩ := hD.plain
  simp only [dirtyToks, List.cons_append, List.nil_append, parseInsert, h1.ident, h2.ident, h3.ident, and_self, if_true]

theorem parseRows_values {D : Dialect} {ct : Nat} {s : Side} {c : Col} {q : Bool} (h : FitName D q c) (rest : List LTok) :
    parseRows D ([.word "VALUES", .sym '(', .word (toString ct), .sym ','] ++ refToks s c q ++ [.sym ')'] ++ rest) = some (.markValues ct s c q, rest) := by
  have h1 := parseRef_toks (s := s) h (.sym ')' :: rest)
  simp only [List.append_assoc, List.cons_append, List.nil_append, parseRows, numOf_nat, h1]

theorem parseSelect_toks {D : Dialect} {ct : Nat} {sel : Col} {t : TableName} {k : Col} {s : Side} {c : Col} {q : Bool}
    (h : ActionFit D (.markSelect ct sel t k s c q)) (rest : List LTok) :
    parseSelect D ([.word "SELECT", .word "DISTINCT", .word (toString ct), .sym ',', nameTok q sel] ++ fromToks t k s c ++ rest) =
      some (.markSelect ct sel t k s c q, rest) := by
  obtain ⟨h1, h2, h3, h4⟩ := h
  have h5 := parseFrom_toks (s := s) h2 h3 h4 rest
  simp only [List.append_assoc, List.cons_append, List.nil_append, parseSelect, numOf_nat, h1.ident, h5, nameTok_isQuoted]

theorem parseRows_select {D : Dialect} {ct : Nat} {sel : Col} {t : TableName} {k : Col} {s : Side} {c : Col} {q : Bool}
    (h : ActionFit D (.markSelect ct sel t k s c q)) (rest : List LTok) :
    parseRows D (selectToks D.backend ([.word "SELECT", .word "DISTINCT", .word (toString ct), .sym ',', nameTok q sel] ++ fromToks t k s c) ++ rest) =
      some (.markSelect ct sel t k s c q, rest) := by
  have h1 := parseSelect_toks h rest
  have h2 := parseSelect_toks h (.sym ')' :: rest)
  cases hb : D.backend
  · simp only [selectToks, List.append_assoc, List.cons_append, List.nil_append] at h1 ⊢
    rw [parseRows]
    · exact h1
    · simp
    · simp
  · simp only [selectToks, List.append_assoc, List.cons_append, List.nil_append] at h2 ⊢
    rw [parseRows, h2]
    rfl
  · simp only [selectToks, List.append_assoc, List.cons_append, List.nil_append] at h2 ⊢
    rw [parseRows, h2]
    rfl

theorem parseStmt_insert {D : Dialect} (hD : DialectOk D) {ts : List LTok} {a : Action} (h : ∀ rest, parseRows D (ts ++ rest) = some (a, rest))
    (rest : List LTok) :
    parseStmt D (InsertHead D.backend ++ dirtyToks ++ ts ++ insertTail D.backend ++ .sym ';' :: rest) = some (a, rest) := by
  have hp : ∀ r, parseInsert D (dirtyToks ++ (ts ++ r)) = some (a, r) := fun r => by rw [parseInsert_toks hD, h]
  cases hb : D.backend <;> simp only [InsertHead, insertTail, List.append_assoc, List.cons_append, List.nil_append] <;> rw [parseStmt] <;>
    first | exact hb | simp only [hp] | (intro r hr; simp at hr)

/-- An action followed by a semicolon is read as that action. -/
theorem parseStmt_toks {D : Dialect} (hD : DialectOk D) {a : Action} (h : ActionFit D a) (rest : List LTok) :
    parseStmt D (a.toks D.backend ++ .sym ';' :: rest) = some (a, rest) := by
  cases a with
  | markValues ct s c q =>
    refine parseStmt_insert hD (fun r => ?_) rest
    exact parseRows_values h r
  | markSelect ct sel t k s c q =>
    refine parseStmt_insert hD (fun r => ?_) rest
    exact parseRows_select h r
  | update u =>
    obtain ⟨h1, h2, h3, h4, h5⟩ := h
    rcases u with ⟨table, col, expr, key, guards⟩
    simp only [Action.toks, List.append_assoc, List.cons_append, List.nil_append, parseStmt, parseUpdate, h1.ident, h2.ident]
    rw [parseSet_toks h3]
    simp only [parseKey_toks h4]
    have hl : ∀ gs : List Guard, gs.length ≤ (gs.flatMap (fun g => LTok.word "AND" :: guardToks g)).length ∧
        ∀ g ∈ gs, (guardToks g).length ≤ (gs.flatMap (fun g => LTok.word "AND" :: guardToks g)).length := by
      intro gs
      induction gs with
      | nil => simp
      | cons g gs ih =>
        simp only [List.flatMap_cons, List.cons_append, List.length_cons, List.length_append, List.mem_cons, forall_eq_or_imp]
        refine ⟨by omega, by omega, fun g' hg' => ?_⟩
        have := ih.2 g' hg'
        omega
    have hg := parseGuards_toks h5 rest (guards.flatMap (fun g => LTok.word "AND" :: guardToks g) ++ .sym ';' :: rest).length
      (guards.flatMap (fun g => LTok.word "AND" :: guardToks g) ++ .sym ';' :: rest).length
      (by have := (hl guards).1; simp only [List.length_append]; omega)
      (fun g hg => by have := (hl guards).2 g hg; simp only [List.length_append]; omega)
    simp only [hg]

/-! ## Two actions with the same text are the same -/

theorem lexO_unique {b : Backend} {s : String} {ts us : List LTok} (h : LexO b s ts) (h' : LexO b s us) : ts = us := by
  have h1 := h ' ' [] (by decide)
  have h2 := h' ' ' [] (by decide)
  rw [h1] at h2
  simp only [Prod.mk.injEq, true_and] at h2
  exact List.append_cancel_right h2

theorem toks_inj {D : Dialect} (hD : DialectOk D) {a a' : Action} (h : ActionFit D a) (h' : ActionFit D a')
    (e : a.toks D.backend = a'.toks D.backend) : a = a' := by
  have h1 := parseStmt_toks hD h []
  have h2 := parseStmt_toks hD h' []
  rw [e, h2] at h1
  simpa using h1.symm

/-- The rendering of different actions differs. -/
theorem text_inj {D : Dialect} (hD : DialectOk D) {a a' : Action} (h : ActionFit D a) (h' : ActionFit D a')
    (e : a.text D.backend (sentLit D.backend) = a'.text D.backend (sentLit D.backend)) : a = a' := by
  have h1 := lexO_action (sep := "\n        ") (.inl rfl) h
  have h2 := lexO_action (sep := "\n        ") (.inl rfl) h'
  rw [e] at h1
  exact toks_inj hD h h' (lexO_unique h1 h2)

theorem dedupFrom_map {α β : Type _} [DecidableEq α] [DecidableEq β] (f : α → β) : ∀ (l seen : List α),
    (∀ x ∈ l ++ seen, ∀ y ∈ l ++ seen, f x = f y → x = y) → dedupFrom (seen.map f) (l.map f) = (dedupFrom seen l).map f
  | [], _, _ => rfl
  | a :: l, seen, h => by
    have hm : f a ∈ seen.map f ↔ a ∈ seen := by
      constructor
      · intro hm
        obtain ⟨x, hx, e⟩ := List.mem_map.1 hm
        have := h x (by simp [hx]) a (by simp) e
        exact this ▸ hx
      · exact fun hm => List.mem_map.2 ⟨a, hm, rfl⟩
    simp only [List.map_cons, dedupFrom, hm]
    split
    · exact dedupFrom_map f l seen fun x hx y hy => h x (by simp_all) y (by simp_all)
    · have hp : ∀ x ∈ l ++ a :: seen, x ∈ a :: l ++ seen := fun x hx => by
        simp only [List.mem_append, List.mem_cons, List.cons_append] at hx ⊢
        rcases hx with h | h | h
        · exact .inr (.inl h)
        · exact .inl h
        · exact .inr (.inr h)
      rw [List.map_cons, ← dedupFrom_map f l (a :: seen) fun x hx y hy => h x (hp x hx) y (hp y hy)]
      rfl

theorem dedup_map {α β : Type _} [DecidableEq α] [DecidableEq β] (f : α → β) (l : List α) (h : ∀ x ∈ l, ∀ y ∈ l, f x = f y → x = y) :
    dedup (l.map f) = (dedup l).map f := by
  have := dedupFrom_map f l [] (by simpa using h)
  exact this

theorem of_dedupFrom {α : Type _} [DecidableEq α] : ∀ (l seen : List α) (x : α), x ∈ dedupFrom seen l → x ∈ l
  | [], _, _, h => by cases h
  | a :: l, seen, x, h => by
    rw [dedupFrom] at h
    split at h
    · exact List.mem_cons_of_mem _ (of_dedupFrom l seen x h)
    · rcases List.mem_cons.1 h with rfl | h
      · exact List.mem_cons_self ..
      · exact List.mem_cons_of_mem _ (of_dedupFrom l _ x h)

/-- The tokens of a list of actions. -/
def actionsToks (b : Backend) (as : List Action) : List LTok := as.flatMap fun a => a.toks b ++ [.sym ';']

theorem lexC_actions {D : Dialect} (hD : DialectOk D) {sep : String} (hsep : Indent sep) {as : List Action} (h : ∀ a ∈ as, ActionFit D a) :
    LexC D.backend (actionsText D.backend (sentLit D.backend) sep as) (actionsToks D.backend (dedup as)) := by
  have e1 : ∀ a ∈ as, endStmt (a.text D.backend (sentLit D.backend)) = a.text D.backend (sentLit D.backend) ++ ";" := by
    intro a ha
    obtain ⟨c, hc, hne⟩ := EndsOk.action (fun _ => EndsOk.lit) (h a ha)
    simp only [endStmt, hc, Option.some.injEq, hne, if_false]
  have e2 : dedup (as.map fun a => (endStmt (a.text D.backend (sentLit D.backend)), a.params)) =
      (dedup as).map fun a => (endStmt (a.text D.backend (sentLit D.backend)), a.params) := by
    refine dedup_map _ _ fun x hx y hy e => text_inj hD (h x hx) (h y hy) ?_
    have := congrArg String.toList (congrArg Prod.fst e)
    simp only [e1 x hx, e1 y hy, String.toList_append] at this
    exact String.toList_injective (List.append_cancel_right this)
  have hsepC : LexC D.backend sep [] := by
    rcases hsep with rfl | rfl <;> cases D.backend <;> decide +kernel
  have hj : ∀ l : List Action, joinL [] (l.map fun a => a.toks D.backend ++ [LTok.sym ';']) = actionsToks D.backend l := by
    intro l
    induction l with
    | nil => rfl
    | cons a l ih =>
      cases l with
      | nil => simp [joinL, actionsToks]
      | cons a' l =>
        simp only [List.map_cons] at ih ⊢
        rw [joinL, ih]
        simp [actionsToks]
  unfold actionsText
  rw [e2, List.map_map, ← hj]
  refine lexC_join hsepC _ _ _ fun a ha => ?_
  have ha' := h a (of_dedupFrom _ _ _ ha)
  simp only [Function.comp]
  rw [e1 a (of_dedupFrom _ _ _ ha), reindent_append, reindent_id (s := ";") (by decide)]
  exact (lexO_action hsep ha').appC (show LexC _ ";" [.sym ';'] by cases D.backend <;> decide +kernel) (by decide)

theorem toks_head {b : Backend} (a : Action) : ∃ w r, a.toks b = .word w :: r ∧ (w = "UPDATE" ∨ w = "INSERT" ∨ w = "BEGIN") := by
  cases a <;> cases b <;> exact ⟨_, _, rfl, by decide⟩

theorem parseStmts_toks {D : Dialect} (hD : DialectOk D) {as : List Action} (h : ∀ a ∈ as, ActionFit D a) {stop : String}
    (hs : stop ≠ "UPDATE" ∧ stop ≠ "INSERT" ∧ stop ≠ "BEGIN") (rest : List LTok) :
    ∀ n, as.length < n → parseStmts D stop n (actionsToks D.backend as ++ .word stop :: rest) = some (as, .word stop :: rest) := by
  induction as with
  | nil =>
    intro n hn
    obtain ⟨m, rfl⟩ : ∃ m, n = m + 1 := ⟨n - 1, by simp at hn; omega⟩
    simp [actionsToks, parseStmts]
  | cons a as ih =>
    intro n hn
    simp only [List.length_cons] at hn
    obtain ⟨m, rfl⟩ : ∃ m, n = m + 1 := ⟨n - 1, by omega⟩
    have h1 := parseStmt_toks hD (h a (List.mem_cons_self ..)) (actionsToks D.backend as ++ .word stop :: rest)
    have h2 := ih (fun a ha => h a (List.mem_cons_of_mem _ ha)) m (by omega)
    obtain ⟨w, r, e, hw⟩ := toks_head (b := D.backend) a
    have hne : w ≠ stop := by
      rintro rfl
      rcases hw with h | h | h
      · exact hs.1 h
      · exact hs.2.1 h
      · exact hs.2.2 h
    have e2 : actionsToks D.backend (a :: as) ++ .word stop :: rest =
        a.toks D.backend ++ .sym ';' :: (actionsToks D.backend as ++ .word stop :: rest) := by
      simp only [actionsToks, List.flatMap_cons, List.append_assoc, List.cons_append, List.nil_append]
    rw [e2, parseStmts, h1]
    simp only [e, List.cons_append, List.head?_cons, Option.some.injEq, LTok.word.injEq, hne, if_false, h2]

end Denorm
