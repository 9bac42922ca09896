import Verif.Lemmas.SqlToks
/-!
# The text of actions and how it is read
-/
namespace Denorm

/-! ## Actions -/

def InsertHead : Backend → List LTok
  | .sqlite => [.word "INSERT", .word "OR", .word "REPLACE", .word "INTO"]
  | .postgresql => [.word "BEGIN", .word "INSERT", .word "INTO"]
  | .mysql => [.word "INSERT", .word "IGNORE", .word "INTO"]

def insertTail : Backend → List LTok
  | .postgresql => [.sym ';', .word "EXCEPTION", .word "WHEN", .word "unique_violation", .word "THEN", .word "END"]
  | _ => []

def dirtyToks : List LTok := [.word "denorm_dirtyinstance", .sym '(', .word "content_type_id", .sym ',', .word "object_id", .sym ')']

def selectToks (b : Backend) (ts : List LTok) : List LTok :=
  match b with
  | .sqlite => ts
  | _ => [.sym '('] ++ ts ++ [.sym ')']

def termToks : Term → List LTok
  | .one => [.word "1"]
  | .ref s c => refToks s c true
  | .scalar .. => []

def setToks (b : Backend) (col : Col) : SetExpr → List LTok
  | .random => randomToks b
  | .plus t => [.quoted col, .sym '+'] ++ termToks t
  | .minus t => [.quoted col, .sym '-'] ++ termToks t

def keyToks : Key → List LTok
  | .eq k s c => [.quoted k, .sym '='] ++ refToks s c true
  | .inSelect k sel t wk s c => [.word k, .word "IN", .sym '(', .word "SELECT", .word "DISTINCT", .word sel] ++ fromToks t wk s c ++ [.sym ')']

def guardToks : Guard → List LTok
  | .filter s f => f.guardToks s
  | .someRow .. => []

/-- The tokens of an action, without the final semicolon. -/
def Action.toks (b : Backend) : Action → List LTok
  | .markValues ct s c q =>
    InsertHead b ++ dirtyToks ++ ([.word "VALUES", .sym '(', .word (toString ct), .sym ','] ++ refToks s c q ++ [.sym ')']) ++ insertTail b
  | .markSelect ct sel t k s c q =>
    InsertHead b ++ dirtyToks ++
      selectToks b ([.word "SELECT", .word "DISTINCT", .word (toString ct), .sym ',', nameTok q sel] ++ fromToks t k s c) ++ insertTail b
  | .update u =>
    [.word "UPDATE", .word u.table, .word "SET", .word u.col, .sym '='] ++ setToks b u.col u.expr ++ [.word "WHERE"] ++ keyToks u.key ++
      u.guards.flatMap (fun g => .word "AND" :: guardToks g)

def TermFit (D : Dialect) : Term → Prop
  | .one => True
  | .ref _ c => QuotableName D.backend c
  | .scalar .. => False

def SetFit (D : Dialect) : SetExpr → Prop
  | .random => True
  | .plus t => TermFit D t
  | .minus t => TermFit D t

def KeyFit (D : Dialect) : Key → Prop
  | .eq k _ c => QuotableName D.backend k ∧ QuotableName D.backend c
  | .inSelect k sel t wk _ c => PlainName D k ∧ PlainName D sel ∧ PlainName D t ∧ PlainName D wk ∧ QuotableName D.backend c

def GuardFit (D : Dialect) : Guard → Prop
  | .filter _ f => f.Shape D.backend
  | .someRow .. => False

/-- Every name in the action is fit for the way in which it is written, and the conditions have the shape that is generated. -/
def ActionFit (D : Dialect) : Action → Prop
  | .markValues _ _ c q => FitName D q c
  | .markSelect _ sel t k _ c q => FitName D q sel ∧ PlainName D t ∧ PlainName D k ∧ QuotableName D.backend c
  | .update u => PlainName D u.table ∧ PlainName D u.col ∧ SetFit D u.expr ∧ KeyFit D u.key ∧ ∀ g ∈ u.guards, GuardFit D g

theorem plain_of {D : Dialect} {n : String} (hr : D.reserved n = false) (hl : foldCase n = n) (hw : WordText n)
    (hd : n.toList.head?.any Char.isDigit = false) : PlainName D n := ⟨hw, hd, by rw [hl]; exact hr, fun _ => hl⟩

theorem DialectOk.plain {D : Dialect} (h : DialectOk D) :
    PlainName D "denorm_dirtyinstance" ∧ PlainName D "content_type_id" ∧ PlainName D "object_id" :=
  ⟨plain_of (h.own "dirtyinstance") (by decide) ⟨by decide, by decide⟩ (by decide), plain_of h.column1 (by decide) ⟨by decide, by decide⟩ (by decide),
    plain_of h.column2 (by decide) ⟨by decide, by decide⟩ (by decide)⟩

/-! ### Text -/

/-- The separators with which the lines of the actions are joined. -/
def Indent (sep : String) : Prop := sep = "\n        " ∨ sep = "\n            "

def insertPre' (b : Backend) (table : TableName) (cols : List Col) : String :=
  match b with
  | .sqlite => "INSERT OR REPLACE INTO " ++ table ++ " " ++ ("(" ++ joinText ", " cols ++ ")") ++ " "
  | .postgresql => "BEGIN\n    INSERT INTO " ++ table ++ " " ++ ("(" ++ joinText ", " cols ++ ")") ++ " "
  | .mysql => "INSERT IGNORE INTO " ++ table ++ " " ++ ("(" ++ joinText ", " cols ++ ")") ++ " "

def insertPre (b : Backend) : String := insertPre' b dirtyTable dirtyColumns

def insertPost : Backend → String
  | .postgresql => ";\nEXCEPTION WHEN unique_violation THEN\n    -- do nothing\nEND"
  | _ => ""

theorem insertText_values' (b : Backend) (t : TableName) (cols : List Col) (vs : List String) : insertText b t cols (.values vs) =
    insertPre' b t cols ++ ((match b with | .sqlite => "VALUES(" | _ => "VALUES (") ++ joinText ", " vs ++ ")") ++ insertPost b := by
  cases b
  · exact String.append_empty.symm
  · exact String.append_empty.symm
  · rfl

theorem insertText_values (b : Backend) (vs : List String) : insertText b dirtyTable dirtyColumns (.values vs) =
    insertPre b ++ ((match b with | .sqlite => "VALUES(" | _ => "VALUES (") ++ joinText ", " vs ++ ")") ++ insertPost b :=
  insertText_values' ..

theorem insertText_select' (b : Backend) (t : TableName) (cols : List Col) (sql : String) : insertText b t cols (.select sql) =
    insertPre' b t cols ++ (match b with | .sqlite => sql | _ => "(" ++ sql ++ ")") ++ insertPost b := by
  cases b
  · exact String.append_empty.symm
  · exact String.append_empty.symm
  · rfl

theorem insertText_select (b : Backend) (sql : String) : insertText b dirtyTable dirtyColumns (.select sql) =
    insertPre b ++ (match b with | .sqlite => sql | _ => "(" ++ sql ++ ")") ++ insertPost b :=
  insertText_select' ..

theorem lexC_insertPre (b : Backend) {sep : String} (h : Indent sep) : LexC b (reindent sep (insertPre b)) (InsertHead b ++ dirtyToks) := by
  rcases h with rfl | rfl <;> cases b <;> decide +kernel

theorem lexO_insertPost (b : Backend) {sep : String} (h : Indent sep) : LexO b (reindent sep (insertPost b)) (insertTail b) := by
  cases b
  · exact (LexC.nil _).toO
  · exact (LexC.nil _).toO
  · have e : insertPost .postgresql = ";\nEXCEPTION WHEN unique_violation THEN\n    -- do nothing\n" ++ "END" := by decide
    have e2 : reindent sep "END" = "END" := reindent_id (by decide)
    rw [e, reindent_append, e2]
    have h1 : LexC .postgresql (reindent sep ";\nEXCEPTION WHEN unique_violation THEN\n    -- do nothing\n")
        [.sym ';', .word "EXCEPTION", .word "WHEN", .word "unique_violation", .word "THEN"] := by
      rcases h with rfl | rfl <;> decide +kernel
    exact h1.appO (lexO_word _ (s := "END") ⟨by decide, by decide⟩)

theorem sep_insertPost (b : Backend) {sep : String} (h : Indent sep) : reindent sep (insertPost b) = "" ∧ insertTail b = [] ∨
    startsSep (reindent sep (insertPost b)) = true := by
  cases b
  · exact .inl ⟨rfl, rfl⟩
  · exact .inl ⟨rfl, rfl⟩
  · right; rcases h with rfl | rfl <;> decide +kernel

/-- An INSERT whose middle part is lexed as `ts`. -/
theorem lexO_insert {b : Backend} {sep : String} (hsep : Indent sep) {mid : String} {ts : List LTok} (hm : LexO b mid ts) (nb : '\n' ∉ mid.toList) :
    LexO b (reindent sep (insertPre b ++ mid ++ insertPost b)) (InsertHead b ++ dirtyToks ++ ts ++ insertTail b) := by
  rw [reindent_append, reindent_append, reindent_id nb]
  have h1 := (lexC_insertPre b hsep).appO hm
  rcases sep_insertPost b hsep with ⟨e, e'⟩ | h
  · rw [e, e', String.append_empty, List.append_nil]
    exact h1
  · exact h1.appO (lexO_insertPost b hsep) h

theorem lexO_markValues {D : Dialect} {sep : String} (hsep : Indent sep) {ct : Nat} {s : Side} {c : Col} {q : Bool} (h : FitName D q c) :
    LexO D.backend (reindent sep ((Action.markValues ct s c q).text D.backend (sentLit D.backend)))
      ((Action.markValues ct s c q).toks D.backend) := by
  have hv : LexO D.backend (joinText ", " [toString ct, refText D.backend s c q]) ([.word (toString ct), .sym ','] ++ refToks s c q) := by
    have h0 : LexC D.backend ", " [.sym ','] := by cases D.backend <;> decide +kernel
    exact ((lexO_nat D.backend ct).appC h0 (by decide)).appO (lexO_ref h)
  have nb : '\n' ∉ (joinText ", " [toString ct, refText D.backend s c q]).toList :=
    noBreak_join (by decide) (by
      simp only [List.mem_cons, List.not_mem_nil, or_false, forall_eq_or_imp, forall_eq]
      exact ⟨(wordText_nat ct).noBreak, noBreak_ref h⟩)
  rw [Action.text, insertText_values, Action.toks]
  refine lexO_insert hsep ?_ ?_
  · have h1 : LexC D.backend (match D.backend with | .sqlite => "VALUES(" | _ => "VALUES (") [.word "VALUES", .sym '('] := by
      cases D.backend <;> decide +kernel
    have h2 : LexC D.backend ")" [.sym ')'] := by cases D.backend <;> decide +kernel
    exact ((h1.appO hv).appC h2 (by decide)).toO
  · rw [noBreak_append, noBreak_append]
    exact ⟨⟨by cases D.backend <;> decide, nb⟩, by decide⟩

theorem lexO_markSelect {D : Dialect} {sep : String} (hsep : Indent sep) {ct : Nat} {sel : Col} {t : TableName} {k : Col} {s : Side} {c : Col} {q : Bool}
    (h : ActionFit D (.markSelect ct sel t k s c q)) :
    LexO D.backend (reindent sep ((Action.markSelect ct sel t k s c q).text D.backend (sentLit D.backend)))
      ((Action.markSelect ct sel t k s c q).toks D.backend) := by
  obtain ⟨h1, h2, h3, h4⟩ := h
  have hv : LexO D.backend (joinText ", " [toString ct, if q then qn D.backend sel else sel]) [.word (toString ct), .sym ',', nameTok q sel] := by
    have h0 : LexC D.backend ", " [.sym ','] := by cases D.backend <;> decide +kernel
    exact ((lexO_nat D.backend ct).appC h0 (by decide)).appO h1.lexO
  have hn := lexO_nested (s := s) hv h2 h3 h4
  have nb := noBreak_nested (D := D) (s := s) (cols := [toString ct, if q then qn D.backend sel else sel]) (t := t) (k := k) (c := c) (by
      simp only [List.mem_cons, List.not_mem_nil, or_false, forall_eq_or_imp, forall_eq]
      refine ⟨(wordText_nat ct).noBreak, ?_⟩
      split
      · exact noBreak_qn h1.noBreak
      · exact h1.noBreak) h2 h3 h4
  rw [Action.text, insertText_select, Action.toks]
  revert hn nb
  generalize nestedSelectText t [toString ct, if q then qn D.backend sel else sel] k (refText D.backend s c true) = mid
  intro hn nb
  refine lexO_insert hsep ?_ ?_
  · cases hb : D.backend with
    | sqlite => rw [hb] at hn; exact hn
    | _ =>
      rw [hb] at hn
      simp only [selectToks]
      exact (((show LexC _ "(" [.sym '('] by decide +kernel).appO hn).appC (show LexC _ ")" [.sym ')'] by decide +kernel) (by decide)).toO
  · cases D.backend
    · exact nb
    · simp only [noBreak_append]; exact ⟨⟨by decide, nb⟩, by decide⟩
    · simp only [noBreak_append]; exact ⟨⟨by decide, nb⟩, by decide⟩

theorem lexO_set {D : Dialect} {col : Col} (hc : QuotableName D.backend col) {e : SetExpr} (h : SetFit D e) :
    LexO D.backend (e.text D.backend col) (setToks D.backend col e) := by
  have hq := lexC_qn hc
  have term : ∀ (op : String) (o : Char) (t : Term), TermFit D t → (op = "+" ∧ o = '+' ∨ op = "-" ∧ o = '-') →
      LexO D.backend (qn D.backend col ++ (" " ++ op ++ " ") ++ (match t with | .one => "1" | .ref s c => refText D.backend s c true | .scalar .. => ""))
        ([.quoted col, .sym o] ++ termToks t) := by
    intro op o t ht ho
    have hop : LexC D.backend (" " ++ op ++ " ") [.sym o] := by
      rcases ho with ⟨rfl, rfl⟩ | ⟨rfl, rfl⟩ <;> cases D.backend <;> decide +kernel
    have hm := hq.appC hop
    cases t with
    | one => exact hm.appO (lexO_word _ (s := "1") ⟨by decide, by decide⟩)
    | ref s c => exact hm.appO (lexO_ref (D := D) (q := true) ht)
    | scalar => cases ht
  cases e with
  | random =>
    have : ∀ b, LexO b (randomText b) (randomToks b) := by
      intro b
      cases b
      · exact LexC.toO (by decide +kernel)
      · exact LexC.toO (by decide +kernel)
      · rw [show randomText .postgresql = "(9223372036854775806::INT8 * ((RANDOM()-0.5)*2.0) )::" ++ "INT8" by decide]
        exact LexC.appO (ts := (randomToks .postgresql).dropLast) (by decide +kernel) (lexO_word _ (s := "INT8") ⟨by decide, by decide⟩)
    exact this _
  | plus t =>
    have := term "+" '+' t h (.inl ⟨rfl, rfl⟩)
    cases t with
    | one => simpa [SetExpr.text, setToks, String.append_assoc] using this
    | ref s c => simpa [SetExpr.text, setToks, String.append_assoc] using this
    | scalar => cases h
  | minus t =>
    have := term "-" '-' t h (.inr ⟨rfl, rfl⟩)
    cases t with
    | one => simpa [SetExpr.text, setToks, String.append_assoc] using this
    | ref s c => simpa [SetExpr.text, setToks, String.append_assoc] using this
    | scalar => cases h

theorem noBreak_set {D : Dialect} {col : Col} (hc : QuotableName D.backend col) {e : SetExpr} (h : SetFit D e) :
    '\n' ∉ (e.text D.backend col).toList := by
  have hq := noBreak_qn (b := D.backend) hc.2.1
  cases e with
  | random => cases hb : D.backend <;> simp only [SetExpr.text] <;> decide
  | plus t =>
    cases t with
    | one => simp only [SetExpr.text, noBreak_append]; exact ⟨hq, by decide⟩
    | ref s c => simp only [SetExpr.text, noBreak_append]; exact ⟨⟨hq, by decide⟩, noBreak_ref (D := D) (q := true) h⟩
    | scalar => cases h
  | minus t =>
    cases t with
    | one => simp only [SetExpr.text, noBreak_append]; exact ⟨hq, by decide⟩
    | ref s c => simp only [SetExpr.text, noBreak_append]; exact ⟨⟨hq, by decide⟩, noBreak_ref (D := D) (q := true) h⟩
    | scalar => cases h

theorem lexO_key {D : Dialect} {k : Key} (h : KeyFit D k) : LexO D.backend (k.text D.backend) (keyToks k) := by
  cases k with
  | eq k s c =>
    have h0 : LexC D.backend " = " [.sym '='] := by cases D.backend <;> decide +kernel
    exact ((lexC_qn h.1).appC h0).appO (lexO_ref (D := D) (q := true) h.2)
  | inSelect k sel t wk s c =>
    obtain ⟨h1, h2, h3, h4, h5⟩ := h
    have h0 : LexC D.backend " IN (" [.word "IN", .sym '('] := by cases D.backend <;> decide +kernel
    have hr : LexC D.backend ")" [.sym ')'] := by cases D.backend <;> decide +kernel
    have hn := lexO_nested (s := s) (cols := [sel]) (lexO_word D.backend h2.word) h3 h4 h5
    have := ((((lexO_word D.backend h1.word).appC h0 (by decide)).appO hn).appC hr (by decide)).toO
    simp only [List.append_assoc, List.cons_append, List.nil_append] at this
    simp only [keyToks, List.append_assoc, List.cons_append, List.nil_append]
    exact this

theorem noBreak_key {D : Dialect} {k : Key} (h : KeyFit D k) : '\n' ∉ (k.text D.backend).toList := by
  cases k with
  | eq k s c =>
    simp only [Key.text, noBreak_append]
    exact ⟨⟨noBreak_qn h.1.2.1, by decide⟩, noBreak_ref (D := D) (q := true) h.2⟩
  | inSelect k sel t wk s c =>
    obtain ⟨h1, h2, h3, h4, h5⟩ := h
    simp only [Key.text, noBreak_append]
    refine ⟨⟨⟨h1.word.noBreak, by decide⟩, noBreak_nested ?_ h3 h4 h5⟩, by decide⟩
    simp only [List.mem_singleton, forall_eq]
    exact h2.word.noBreak

theorem lexO_where {D : Dialect} {k : Key} (hk : KeyFit D k) {gs : List Guard} (hg : ∀ g ∈ gs, GuardFit D g) :
    LexO D.backend (joinText " AND " (k.text D.backend :: gs.map (Guard.text D.backend (sentLit D.backend))))
      (keyToks k ++ gs.flatMap (fun g => .word "AND" :: guardToks g)) ∧
    '\n' ∉ (joinText " AND " (k.text D.backend :: gs.map (Guard.text D.backend (sentLit D.backend)))).toList := by
  have hA : LexC D.backend " AND " [.word "AND"] := by cases D.backend <;> decide +kernel
  have one : ∀ g, GuardFit D g → LexO D.backend (g.text D.backend (sentLit D.backend)) (guardToks g) ∧
      '\n' ∉ (g.text D.backend (sentLit D.backend)).toList := by
    intro g hg
    cases g with
    | filter s f => exact ⟨lexO_guard s hg, noBreak_guard s hg⟩
    | someRow => cases hg
  constructor
  · have gen : ∀ (x : String) (ts : List LTok), LexO D.backend x ts →
        LexO D.backend (joinText " AND " (x :: gs.map (Guard.text D.backend (sentLit D.backend)))) (ts ++ gs.flatMap (fun g => .word "AND" :: guardToks g)) := by
      induction gs with
      | nil => intro x ts hx; simpa [joinText] using hx
      | cons g gs ih =>
        intro x ts hx
        have h1 := ih (fun g hg' => hg g (List.mem_cons_of_mem _ hg')) _ _ (one g (hg g (List.mem_cons_self ..))).1
        have h2 := (hx.appC hA (by decide)).appO h1
        simp only [List.append_assoc, List.cons_append, List.nil_append] at h2
        simp only [List.map_cons, joinText, List.flatMap_cons, List.cons_append]
        exact h2
    exact gen _ _ (lexO_key hk)
  · refine noBreak_join (by decide) ?_
    intro x hx
    rcases List.mem_cons.1 hx with rfl | hx
    · exact noBreak_key hk
    · obtain ⟨g, hg', rfl⟩ := List.mem_map.1 hx
      exact (one g (hg g hg')).2

theorem noBreak_update {D : Dialect} {u : UpdAction} (h : ActionFit D (.update u)) :
    '\n' ∉ ((Action.update u).text D.backend (sentLit D.backend)).toList := by
  obtain ⟨h1, h2, h3, h4, h5⟩ := h
  simp only [Action.text, updateText, noBreak_append, and_assoc]
  exact ⟨by decide, h1.word.noBreak, by decide, h2.word.noBreak, by decide, noBreak_set h2.quotable h3, by decide, (lexO_where h4 h5).2⟩

theorem lexO_update {D : Dialect} {sep : String} {u : UpdAction} (h : ActionFit D (.update u)) :
    LexO D.backend (reindent sep ((Action.update u).text D.backend (sentLit D.backend))) ((Action.update u).toks D.backend) := by
  have nb := noBreak_update h
  obtain ⟨h1, h2, h3, h4, h5⟩ := h
  have hw := lexO_where h4 h5
  rw [reindent_id nb]
  have a0 : LexC D.backend "UPDATE " [.word "UPDATE"] := by cases D.backend <;> decide +kernel
  have a1 : LexC D.backend " SET " [.word "SET"] := by cases D.backend <;> decide +kernel
  have a2 : LexC D.backend " = " [.sym '='] := by cases D.backend <;> decide +kernel
  have a3 : LexC D.backend " WHERE " [.word "WHERE"] := by cases D.backend <;> decide +kernel
  have := ((((((a0.appO (lexO_word _ h1.word)).appC a1 (by decide)).appO (lexO_word _ h2.word)).appC a2 (by decide)).appO
    (lexO_set h2.quotable h3)).appC a3 (by decide)).appO hw.1
  unfold Action.text updateText Action.toks
  simp only [List.append_assoc, List.cons_append, List.nil_append] at this ⊢
  exact this

/-- The text of an action, its lines joined again with one of the two separators, is lexed as its tokens. -/
theorem lexO_action {D : Dialect} {sep : String} (hsep : Indent sep) {a : Action} (h : ActionFit D a) :
    LexO D.backend (reindent sep (a.text D.backend (sentLit D.backend))) (a.toks D.backend) := by
  cases a with
  | markValues ct s c q => exact lexO_markValues hsep h
  | markSelect ct sel t k s c q => exact lexO_markSelect hsep h
  | update u => exact lexO_update h

end Denorm
