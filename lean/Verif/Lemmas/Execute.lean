import Verif.Code.Execute
import Verif.Lemmas.SqlTrigger
import Verif.Lemmas.SqlChars
/-!
# What the drivers make of the text with placeholders
-/
namespace Denorm

/-! ## Texts without percent signs -/

def Clean (s : String) : Prop := '%' ∉ s.toList

instance (s : String) : Decidable (Clean s) := by unfold Clean; infer_instance

theorem clean_append {s u : String} : Clean (s ++ u) ↔ Clean s ∧ Clean u := by simp [Clean]

theorem Clean.app {s u : String} (h : Clean s) (h' : Clean u) : Clean (s ++ u) := clean_append.2 ⟨h, h'⟩

theorem Clean.word {s : String} (h : WordText s) : Clean s := by
  intro hm
  have := List.all_eq_true.1 h.2 _ hm
  revert this; decide

theorem Clean.name {D : Dialect} {n : String} (h : PlainName D n) : Clean n := Clean.word h.word

theorem Clean.qn {b : Backend} {n : String} (h : QuotableName b n) : Clean (qn b n) := by
  have h1 := h.2.2.1
  unfold Clean
  rw [qn_toList]
  simp only [List.mem_cons, List.mem_append, List.not_mem_nil, or_false]
  rintro (h2 | h2 | h2)
  · revert h2; cases b <;> decide
  · exact h1 h2
  · revert h2; cases b <;> decide

theorem Clean.fit {D : Dialect} {q : Bool} {n : String} (h : FitName D q n) : Clean (if q then Denorm.qn D.backend n else n) := by
  cases q
  · exact Clean.name h
  · exact Clean.qn h

theorem Clean.ref {D : Dialect} {s : Side} {c : Col} {q : Bool} (h : FitName D q c) : Clean (refText D.backend s c q) := by
  unfold refText
  exact ((by cases s <;> decide : Clean s.str).app (by decide)).app (Clean.fit h)

theorem Clean.join {sep : String} (hs : Clean sep) : ∀ {l : List String}, (∀ x ∈ l, Clean x) → Clean (joinText sep l)
  | [], _ => show Clean "" by decide
  | [x], h => h x (by simp)
  | x :: y :: l, h => ((h x (by simp)).app hs).app (Clean.join hs fun z hz => h z (List.mem_cons_of_mem _ hz))

theorem Clean.nat (n : Nat) : Clean (toString n) := Clean.word (wordText_nat n)

theorem Clean.reindent {sep s : String} (hs : Clean sep) (h : Clean s) : Clean (Denorm.reindent sep s) := by
  unfold Clean Denorm.reindent
  rw [String.toList_ofList, List.mem_flatMap]
  rintro ⟨c, hc, hm⟩
  split at hm
  · exact hs hm
  · rw [List.mem_singleton] at hm
    exact h (hm ▸ hc)

/-! ## Formatting piece by piece -/

theorem pyFormat_char {c : Char} (h : c ≠ '%') (cs : List Char) (as : List (List Char)) : pyFormat (c :: cs) as = (pyFormat cs as).map (c :: ·) := by
  cases as <;> simp [pyFormat, h]

theorem pyFormat_clean : ∀ {s : List Char}, '%' ∉ s → ∀ (cs : List Char) (as : List (List Char)), pyFormat (s ++ cs) as = (pyFormat cs as).map (s ++ ·)
  | [], _, cs, as => by simp
  | c :: s, h, cs, as => by
    simp only [List.mem_cons, not_or] at h
    rw [List.cons_append, pyFormat_char (Ne.symm h.1), pyFormat_clean h.2]
    simp [Function.comp_def]

theorem questionMarks_char {c : Char} (h : c ≠ '%') (after : Bool) (cs : List Char) : questionMarks after (c :: cs) = c :: questionMarks false cs := by
  have : (c == '%') = false := by simpa using h
  simp [questionMarks, h, this]

theorem countMarks_char {c : Char} (h : c ≠ '%') (after : Bool) (cs : List Char) : countMarks after (c :: cs) = countMarks false cs := by
  have : (c == '%') = false := by simpa using h
  simp [countMarks, h, this]

theorem questionMarks_clean : ∀ {s : List Char}, '%' ∉ s → ∀ (cs : List Char), questionMarks false (s ++ cs) = s ++ questionMarks false cs
  | [], _, _ => rfl
  | c :: s, h, cs => by
    simp only [List.mem_cons, not_or] at h
    rw [List.cons_append, questionMarks_char (Ne.symm h.1), questionMarks_clean h.2, List.cons_append]

theorem countMarks_clean : ∀ {s : List Char}, '%' ∉ s → ∀ (cs : List Char), countMarks false (s ++ cs) = countMarks false cs
  | [], _, _ => rfl
  | c :: s, h, cs => by
    simp only [List.mem_cons, not_or] at h
    rw [List.cons_append, countMarks_char (Ne.symm h.1), countMarks_clean h.2]

theorem singlePercents_clean : ∀ {s : List Char}, '%' ∉ s → singlePercents s = s
  | [], _ => rfl
  | c :: s, h => by
    simp only [List.mem_cons, not_or] at h
    have : singlePercents (c :: s) = c :: singlePercents s := by
      cases s <;> simp [singlePercents, Ne.symm h.1]
    rw [this, singlePercents_clean h.2]

/-- The driver puts the parameters `ps` into the text `t`, the result is `u`; and this is so whatever follows. -/
structure Fmt (b : Backend) (t : String) (ps : List Val) (u : String) : Prop where
  py : ∀ cs as, pyFormat (t.toList ++ cs) (ps.map (fun v => (sentLit b v).toList) ++ as) = (pyFormat cs as).map (u.toList ++ ·)
  marks : b = .sqlite → ∀ cs, questionMarks false (t.toList ++ cs) = u.toList ++ questionMarks false cs
  count : b = .sqlite → ∀ cs, countMarks false (t.toList ++ cs) = ps.length + countMarks false cs
  clean : b = .sqlite → Clean u

theorem Fmt.text {b : Backend} {s : String} (h : Clean s) : Fmt b s [] s where
  py := fun cs as => by simpa using pyFormat_clean h cs as
  marks := fun _ => questionMarks_clean h
  count := fun _ cs => by simpa using countMarks_clean h cs
  clean := fun _ => h

theorem Fmt.app {b : Backend} {t t' u u' : String} {ps ps' : List Val} (h : Fmt b t ps u) (h' : Fmt b t' ps' u') : Fmt b (t ++ t') (ps ++ ps') (u ++ u') where
  py := fun cs as => by
    rw [cat2, List.append_assoc, List.map_append, List.append_assoc, h.py, h'.py, cat2]
    simp [Function.comp_def]
  marks := fun hb cs => by rw [cat2, List.append_assoc, h.marks hb, h'.marks hb, cat2, List.append_assoc]
  count := fun hb cs => by rw [cat2, List.append_assoc, h.count hb, h'.count hb, List.length_append]; omega
  clean := fun hb => (h.clean hb).app (h'.clean hb)

theorem placeholder_chars (v : Val) : (placeholder v).toList = ['%', 's'] := by unfold placeholder; decide

theorem sqlite_lit (v : Val) : sentLit .sqlite v = "?" := by cases v <;> rfl

theorem Fmt.value (b : Backend) (v : Val) : Fmt b (placeholder v) [v] (sentLit b v) where
  py := fun cs as => by
    rw [placeholder_chars]
    simp [pyFormat]
  marks := by
    rintro rfl cs
    rw [placeholder_chars, sqlite_lit]
    simp [questionMarks]
  count := by
    rintro rfl cs
    rw [placeholder_chars]
    simp [countMarks, Nat.add_comm]
  clean := by
    rintro rfl
    rw [sqlite_lit]
    decide

theorem Fmt.pre {b : Backend} {s t u : String} {ps : List Val} (hs : Clean s) (h : Fmt b t ps u) : Fmt b (s ++ t) ps (s ++ u) := (Fmt.text hs).app h

theorem Fmt.post {b : Backend} {s t u : String} {ps : List Val} (h : Fmt b t ps u) (hs : Clean s) : Fmt b (t ++ s) ps (u ++ s) := by
  simpa using h.app (Fmt.text hs)

/-- The same for lists of texts. -/
inductive FmtL (b : Backend) : List String → List Val → List String → Prop where
  | nil : FmtL b [] [] []
  | cons : ∀ {t u ps ts us qs}, Fmt b t ps u → FmtL b ts qs us → FmtL b (t :: ts) (ps ++ qs) (u :: us)

theorem FmtL.single {b : Backend} {t u : String} {ps : List Val} (h : Fmt b t ps u) : FmtL b [t] ps [u] := by
  simpa using FmtL.cons h .nil

theorem FmtL.append {b : Backend} {ts us ts' us' : List String} {ps ps' : List Val} (h : FmtL b ts ps us) (h' : FmtL b ts' ps' us') :
    FmtL b (ts ++ ts') (ps ++ ps') (us ++ us') := by
  induction h with
  | nil => exact h'
  | cons h1 _ ih => rw [List.append_assoc]; exact .cons h1 ih

theorem FmtL.join {b : Backend} {sep : String} (hs : Clean sep) {ts us : List String} {ps : List Val} (h : FmtL b ts ps us) :
    Fmt b (joinText sep ts) ps (joinText sep us) := by
  induction h with
  | nil => exact Fmt.text (show Clean "" by decide)
  | cons h1 h2 ih =>
    cases h2 with
    | nil => simpa [joinText] using h1
    | cons h3 h4 =>
      rw [joinText, joinText]
      exact (h1.post hs).app ih

theorem FmtL.map {b : Backend} {α : Type _} {f g : α → String} {p : α → List Val} : ∀ {l : List α}, (∀ x ∈ l, Fmt b (f x) (p x) (g x)) →
    FmtL b (l.map f) (l.flatMap p) (l.map g)
  | [], _ => .nil
  | x :: l, h => by
    rw [List.flatMap_cons]
    exact .cons (h x (by simp)) (FmtL.map fun y hy => h y (List.mem_cons_of_mem _ hy))

theorem Fmt.unique {b : Backend} {t u u' : String} {ps : List Val} (h : Fmt b t ps u) (h' : Fmt b t ps u') : u = u' := by
  have h1 := h.py [] []
  rw [h'.py [] []] at h1
  simp only [pyFormat, Option.map_some, List.append_nil, Option.some.injEq] at h1
  exact String.toList_injective h1.symm

theorem pyFormat_mem {c : Char} (h1 : c ≠ '%') (h2 : c ≠ 's') (t : List Char) (as : List (List Char)) :
    ∀ u, pyFormat t as = some u → c ∈ t → c ∈ u := by
  fun_induction pyFormat t as with
  | case1 cs a as ih =>
    intro u hu hm
    obtain ⟨r, hr, rfl⟩ := Option.map_eq_some_iff.1 hu
    simp only [List.mem_cons, h1, h2, false_or] at hm
    exact List.mem_append_right _ (ih r hr hm)
  | case2 => intro u hu; cases hu
  | case3 as cs ih =>
    intro u hu hm
    obtain ⟨r, hr, rfl⟩ := Option.map_eq_some_iff.1 hu
    simp only [List.mem_cons, h1, false_or] at hm
    exact List.mem_cons_of_mem _ (ih r hr hm)
  | case4 => intro u hu; cases hu
  | case5 as d cs _ _ _ _ ih =>
    intro u hu hm
    obtain ⟨r, hr, rfl⟩ := Option.map_eq_some_iff.1 hu
    rcases List.mem_cons.1 hm with rfl | hm
    · exact List.mem_cons_self ..
    · exact List.mem_cons_of_mem _ (ih r hr hm)
  | case6 => intro u _ hm; cases hm
  | case7 => intro u hu; cases hu

/-- A line break in the text is still there afterwards. -/
theorem Fmt.noBreak {b : Backend} {t u : String} {ps : List Val} (h : Fmt b t ps u) (hu : '\n' ∉ u.toList) : '\n' ∉ t.toList := by
  intro hm
  have h1 := h.py [] []
  rw [List.append_nil, List.append_nil] at h1
  exact hu (by simpa using pyFormat_mem (by decide) (by decide) _ _ _ h1 hm)

/-! ## Actions -/

theorem fmt_lookup (b : Backend) (l : Lookup) (v : Val) : Fmt b (l.text placeholder v) (v :: l.more) (l.text (sentLit b) v) := by
  have one : ∀ (s : String), Clean s → Fmt b (s ++ " " ++ placeholder v) [v] (s ++ " " ++ sentLit b v) :=
    fun s hs => Fmt.pre (hs.app (by decide)) (Fmt.value b v)
  cases l with
  | oneOf vs =>
    have : FmtL b ((v :: vs).map placeholder) ((v :: vs).flatMap fun v => [v]) ((v :: vs).map (sentLit b)) := FmtL.map fun x _ => Fmt.value b x
    have e : (v :: vs).flatMap (fun v => [v]) = v :: vs := by simp
    rw [e] at this
    exact (Fmt.pre (by decide) (this.join (by decide))).post (by decide)
  | between hi =>
    exact ((Fmt.pre (by decide) (Fmt.value b v)).post (by decide)).app (Fmt.value b hi)
  | _ => exact one _ (by decide)

theorem fmt_parts {D : Dialect} (s : Side) {f : Filter} (h : f.Shape D.backend) (neg : Bool) :
    FmtL D.backend (f.parts D.backend placeholder s neg) f.params (f.parts D.backend (sentLit D.backend) s neg) := by
  induction f generalizing neg with
  | tt => cases h
  | cmp c l v =>
    refine FmtL.single (Fmt.pre ?_ (fmt_lookup _ l v))
    exact (Clean.ref (D := D) (q := true) h.1).app (by decide)
  | isNull c => exact FmtL.single (Fmt.text ((Clean.ref (D := D) (q := true) h).app (by decide)))
  | and f g ih1 ih2 => exact (ih1 h.2.1 neg).append (ih2 h.2.2 neg)
  | not f ih =>
    rcases f.isNull_or neg with ⟨rfl, c, rfl⟩ | ⟨h1, h2⟩
    · exact FmtL.single (Fmt.text ((Clean.ref (D := D) (q := true) h).app (by decide)))
    · rw [h1, h1]
      exact FmtL.single ((Fmt.pre (by decide) ((ih h true).join (by decide))).post (by decide))

theorem fmt_guard {D : Dialect} {g : Guard} (h : GuardFit D g) :
    Fmt D.backend (g.text D.backend placeholder) g.params (g.text D.backend (sentLit D.backend)) := by
  cases g with
  | filter s f =>
    rw [Guard.text, Guard.text, Filter.text_eq h, Filter.text_eq h, Guard.params]
    split
    · exact (Fmt.pre (by decide) ((fmt_parts s h false).join (by decide))).post (by decide)
    · exact (fmt_parts s h false).join (by decide)
  | someRow => cases h

theorem clean_nested {D : Dialect} {s : Side} {cols : List String} {t : TableName} {k c : Col} (h : ∀ x ∈ cols, Clean x) (ht : PlainName D t) (hk : PlainName D k)
    (hc : QuotableName D.backend c) : Clean (nestedSelectText t cols k (refText D.backend s c true)) := by
  unfold nestedSelectText
  exact (((((((by decide : Clean "SELECT DISTINCT ").app (Clean.join (by decide) h)).app (by decide)).app (Clean.name ht)).app (by decide)).app
    (Clean.name hk)).app (by decide)).app (Clean.ref (D := D) (q := true) hc)

theorem clean_pre (b : Backend) : Clean (insertPre b) := by cases b <;> decide +kernel
theorem clean_post (b : Backend) : Clean (insertPost b) := by cases b <;> decide +kernel

theorem clean_mark {D : Dialect} {a : Action} (h : ActionFit D a) (hu : ∀ u, a ≠ .update u) (lit : Val → String) : Clean (a.text D.backend lit) := by
  cases a with
  | markValues ct s c q =>
    rw [Action.text, insertText_values]
    refine ((clean_pre _).app ?_).app (clean_post _)
    refine ((by cases D.backend <;> decide : Clean (match D.backend with | .sqlite => "VALUES(" | _ => "VALUES (")).app ?_).app (by decide)
    refine Clean.join (by decide) ?_
    simp only [List.mem_cons, List.not_mem_nil, or_false, forall_eq_or_imp, forall_eq]
    exact ⟨Clean.nat ct, Clean.ref h⟩
  | markSelect ct sel t k s c q =>
    have hn : Clean (nestedSelectText t [toString ct, if q then qn D.backend sel else sel] k (refText D.backend s c true)) := by
      refine clean_nested ?_ h.2.1 h.2.2.1 h.2.2.2
      simp only [List.mem_cons, List.not_mem_nil, or_false, forall_eq_or_imp, forall_eq]
      exact ⟨Clean.nat ct, Clean.fit h.1⟩
    rw [Action.text, insertText_select]
    refine ((clean_pre _).app ?_).app (clean_post _)
    revert hn
    generalize nestedSelectText t [toString ct, if q then qn D.backend sel else sel] k (refText D.backend s c true) = mid
    intro hn
    cases D.backend
    · exact hn
    · exact ((by decide : Clean "(").app hn).app (by decide)
    · exact ((by decide : Clean "(").app hn).app (by decide)
  | update u => exact absurd rfl (hu u)

theorem clean_set {D : Dialect} {col : Col} (hc : QuotableName D.backend col) {e : SetExpr} (h : SetFit D e) : Clean (e.text D.backend col) := by
  have hq := Clean.qn hc
  cases e with
  | random => show Clean (randomText D.backend); cases D.backend <;> decide
  | plus t =>
    cases t with
    | one => exact hq.app (by decide)
    | ref s c => exact (hq.app (by decide)).app (Clean.ref (D := D) (q := true) h)
    | scalar => cases h
  | minus t =>
    cases t with
    | one => exact hq.app (by decide)
    | ref s c => exact (hq.app (by decide)).app (Clean.ref (D := D) (q := true) h)
    | scalar => cases h

theorem clean_key {D : Dialect} {k : Key} (h : KeyFit D k) : Clean (k.text D.backend) := by
  cases k with
  | eq k s c => exact ((Clean.qn h.1).app (by decide)).app (Clean.ref (D := D) (q := true) h.2)
  | inSelect k sel t wk s c =>
    obtain ⟨h1, h2, h3, h4, h5⟩ := h
    refine (((Clean.name h1).app (by decide)).app (clean_nested ?_ h3 h4 h5)).app (by decide)
    simp only [List.mem_singleton, forall_eq]
    exact Clean.name h2

theorem fmt_action {D : Dialect} {a : Action} (h : ActionFit D a) :
    Fmt D.backend (a.text D.backend placeholder) a.params (a.text D.backend (sentLit D.backend)) := by
  cases a with
  | markValues ct s c q => exact Fmt.text (clean_mark h (fun _ => by simp) (sentLit D.backend))
  | markSelect ct sel t k s c q => exact Fmt.text (clean_mark h (fun _ => by simp) (sentLit D.backend))
  | update u =>
    obtain ⟨h1, h2, h3, h4, h5⟩ := h
    unfold Action.text updateText
    refine Fmt.pre ?_ ?_
    · exact ((((((by decide : Clean "UPDATE ").app (Clean.name h1)).app (by decide)).app (Clean.name h2)).app (by decide)).app (clean_set h2.quotable h3)).app
        (by decide)
    · have : FmtL D.backend (u.key.text D.backend :: u.guards.map (Guard.text D.backend placeholder)) ([] ++ u.guards.flatMap Guard.params)
          (u.key.text D.backend :: u.guards.map (Guard.text D.backend (sentLit D.backend))) :=
        .cons (Fmt.text (clean_key h4)) (FmtL.map fun g hg => fmt_guard (h5 g hg))
      exact this.join (by decide)

/-- Line breaks are replaced before the parameters are put in. -/
theorem fmt_laid {D : Dialect} {sep : String} (hs : Clean sep) {a : Action} (h : ActionFit D a) :
    Fmt D.backend (reindent sep (a.text D.backend placeholder ++ ";")) a.params (reindent sep (a.text D.backend (sentLit D.backend) ++ ";")) := by
  rw [reindent_append, reindent_append]
  refine Fmt.post ?_ (Clean.reindent hs (by decide))
  cases a with
  | markValues ct s c q => exact Fmt.text (Clean.reindent hs (clean_mark h (fun _ => by simp) (sentLit D.backend)))
  | markSelect ct sel t k s c q => exact Fmt.text (Clean.reindent hs (clean_mark h (fun _ => by simp) (sentLit D.backend)))
  | update u =>
    have hf := fmt_action h
    have nb := noBreak_update h
    rw [reindent_id nb, reindent_id (hf.noBreak nb)]
    exact hf

/-! ## Triggers -/

theorem ends_placeholder {b : Backend} (v : Val) (_ : LitOk b v) : EndsOk (placeholder v) := ⟨'s', by rw [placeholder_chars]; rfl, by decide⟩

theorem endStmt_eq {s : String} (h : EndsOk s) : endStmt s = s ++ ";" := by
  obtain ⟨c, hc, hne⟩ := h
  simp only [endStmt, hc, Option.some.injEq, hne, if_false]

/-- Leaving out repetitions among the texts with placeholders is leaving out repetitions among the actions. -/
theorem dedup_template {D : Dialect} (hD : DialectOk D) {as : List Action} (h : ∀ a ∈ as, ActionFit D a) :
    dedup (as.map fun a => (endStmt (a.text D.backend placeholder), a.params)) =
      (dedup as).map fun a => (endStmt (a.text D.backend placeholder), a.params) := by
  refine dedup_map _ _ fun x hx y hy e => text_inj hD (h x hx) (h y hy) ?_
  have e1 := congrArg String.toList (congrArg Prod.fst e)
  have e2 : x.params = y.params := congrArg Prod.snd e
  simp only [endStmt_eq (EndsOk.action ends_placeholder (h x hx)), endStmt_eq (EndsOk.action ends_placeholder (h y hy)), String.toList_append] at e1
  have e3 := String.toList_injective (List.append_cancel_right e1)
  have f1 := fmt_action (h x hx)
  rw [e3, e2] at f1
  exact f1.unique (fmt_action (h y hy))

theorem dedup_sent {D : Dialect} (hD : DialectOk D) {as : List Action} (h : ∀ a ∈ as, ActionFit D a) :
    dedup (as.map fun a => (endStmt (a.text D.backend (sentLit D.backend)), a.params)) =
      (dedup as).map fun a => (endStmt (a.text D.backend (sentLit D.backend)), a.params) := by
  refine dedup_map _ _ fun x hx y hy e => text_inj hD (h x hx) (h y hy) ?_
  have e1 := congrArg String.toList (congrArg Prod.fst e)
  simp only [endStmt_eq (EndsOk.action (fun _ => EndsOk.lit) (h x hx)), endStmt_eq (EndsOk.action (fun _ => EndsOk.lit) (h y hy)), String.toList_append] at e1
  exact String.toList_injective (List.append_cancel_right e1)

theorem fmt_actions {D : Dialect} (hD : DialectOk D) {sep : String} (hs : Clean sep) {as : List Action} (h : ∀ a ∈ as, ActionFit D a) :
    Fmt D.backend (actionsText D.backend placeholder sep as)
      ((dedup (as.map fun a => (endStmt (a.text D.backend placeholder), a.params))).flatMap (·.2))
      (actionsText D.backend (sentLit D.backend) sep as) := by
  unfold actionsText
  rw [dedup_template hD h, dedup_sent hD h, List.map_map, List.map_map, List.flatMap_map]
  refine FmtL.join hs (FmtL.map fun a ha => ?_)
  have ha' := h a (of_dedupFrom _ _ _ ha)
  simp only [Function.comp]
  rw [endStmt_eq (EndsOk.action ends_placeholder ha'), endStmt_eq (EndsOk.action (fun _ => EndsOk.lit) ha')]
  exact fmt_laid hs ha'

theorem clean_changed {b : Backend} {f : Col} (h : QuotableName b f) : Clean (changedCondText b f) := by
  have hq := Clean.qn h
  cases b
  · exact (((((by decide : Clean "(OLD.").app hq).app (by decide : Clean " IS NOT NEW.")).app hq).app (by decide : Clean ")"))
  · exact (((((by decide : Clean "(NOT(OLD.").app hq).app (by decide : Clean " <=> NEW.")).app hq).app (by decide : Clean "))"))
  · exact (((((by decide : Clean "(OLD.").app hq).app (by decide : Clean " IS DISTINCT FROM NEW.")).app hq).app (by decide : Clean ")"))

theorem clean_upper (e : Event) : Clean e.upper := by cases e <;> decide

theorem clean_list_if {p : Prop} [Decidable p] {s : String} (h : p → Clean s) : ∀ x ∈ (if p then [s] else []), Clean x := by
  split
  · simpa using h ‹_›
  · simp

theorem clean_sqliteConds {D : Dialect} (hb : D.backend = .sqlite) {t : PyTrigger} (h : TriggerFit D t) : ∀ x ∈ sqliteConds t, Clean x := by
  intro x hx
  unfold sqliteConds at hx
  rcases List.mem_append.1 hx with hx | hx
  · refine clean_list_if (fun _ => ?_) x hx
    refine ((by decide : Clean "(").app (Clean.join (by decide) ?_)).app (by decide)
    intro y hy
    obtain ⟨f, hf, rfl⟩ := List.mem_map.1 hy
    exact clean_changed (hb ▸ h.fields f hf)
  · cases hc : t.contentTypeField with
    | none => rw [hc] at hx; cases hx
    | some c =>
      have hq : Clean (qn .sqlite c) := Clean.qn (hb ▸ h.ctField c hc)
      have hn := Clean.nat t.contentType
      rw [hc] at hx
      cases he : t.event <;> rw [he] at hx <;> simp only [List.mem_singleton] at hx <;> subst hx <;> simp only [clean_append, hq, hn] <;> decide

theorem clean_postgresConds {D : Dialect} (hb : D.backend = .postgresql) {t : PyTrigger} (h : TriggerFit D t) : ∀ x ∈ postgresConds t, Clean x := by
  intro x hx
  unfold postgresConds at hx
  rcases List.mem_append.1 hx with hx | hx
  · refine clean_list_if (fun _ => ?_) x hx
    refine ((by decide : Clean "(").app (Clean.join (by decide) ?_)).app (by decide)
    intro y hy
    obtain ⟨f, hf, rfl⟩ := List.mem_map.1 hy
    exact clean_changed (hb ▸ h.fields f hf)
  · cases hc : t.contentTypeField with
    | none => rw [hc] at hx; cases hx
    | some c =>
      have hq : Clean (qn .postgresql c) := Clean.qn (hb ▸ h.ctField c hc)
      have hn := Clean.nat t.contentType
      rw [hc] at hx
      cases he : t.event <;> rw [he] at hx <;> simp only [List.mem_singleton] at hx <;> subst hx <;> simp only [clean_append, hq, hn] <;> decide

theorem clean_mysqlConds {D : Dialect} (hb : D.backend = .mysql) {t : PyTrigger} (h : TriggerFit D t) : ∀ x ∈ mysqlConds t, Clean x := by
  intro x hx
  unfold mysqlConds at hx
  split at hx
  · obtain ⟨f, hf, rfl⟩ := List.mem_map.1 hx
    exact clean_changed (hb ▸ h.fields f hf)
  · cases hx

theorem clean_when {D : Dialect} (hb : D.backend = .sqlite) {t : PyTrigger} (h : TriggerFit D t) : Clean (sqliteWhen t) := by
  have hc := clean_sqliteConds hb h
  unfold sqliteWhen
  split
  · decide
  · exact ((by decide : Clean "WHEN(").app (Clean.join (by decide) hc)).app (by decide)

theorem fmt_sqliteFrame {b : Backend} {n e t w A B : String} {ps : List Val} (hn : Clean n) (he : Clean e) (ht : Clean t) (hw : Clean w) (h : Fmt b A ps B) :
    Fmt b (sqliteFrame n e t w A) ps (sqliteFrame n e t w B) := by
  have p : Clean ("\nCREATE TRIGGER " ++ n ++ "\n    AFTER " ++ e ++ " ON " ++ t ++ "\n    FOR EACH ROW " ++ w ++ " BEGIN\n        ") :=
    ((((((((by decide : Clean "\nCREATE TRIGGER ").app hn).app (by decide)).app he).app (by decide)).app ht).app (by decide)).app hw).app (by decide)
  have q : Clean "\n    END;\n" := by decide
  exact (Fmt.pre p h).post q

theorem fmt_postgresFrame {b : Backend} {n e t A B : String} {ps : List Val} (hn : Clean n) (he : Clean e) (ht : Clean t) (h : Fmt b A ps B) :
    Fmt b (postgresFrame n e t A) ps (postgresFrame n e t B) := by
  have p : Clean ("\nCREATE OR REPLACE FUNCTION func_" ++ n ++ "()\n    RETURNS TRIGGER AS $$\n    BEGIN\n        ") :=
    ((by decide : Clean "\nCREATE OR REPLACE FUNCTION func_").app hn).app (by decide)
  have q1 : Clean "\n        RETURN NULL;\n    END;\n$$ LANGUAGE plpgsql;\nCREATE TRIGGER " := by decide
  have q2 : Clean "\n    AFTER " := by decide
  have q3 : Clean " ON " := by decide
  have q4 : Clean "\n    FOR EACH ROW EXECUTE PROCEDURE func_" := by decide
  have q5 : Clean "();\n" := by decide
  exact (((((((((Fmt.pre p h).post q1).post hn).post q2).post he).post q3).post ht).post q4).post hn).post q5

theorem fmt_mysqlFrame {b : Backend} {n e t A B : String} {ps : List Val} (hn : Clean n) (he : Clean e) (ht : Clean t) (h : Fmt b A ps B) :
    Fmt b (mysqlFrame n e t A) ps (mysqlFrame n e t B) := by
  have p : Clean ("\nCREATE TRIGGER " ++ n ++ "\n    AFTER " ++ e ++ " ON " ++ t ++ "\n    FOR EACH ROW BEGIN\n        ") :=
    ((((((by decide : Clean "\nCREATE TRIGGER ").app hn).app (by decide)).app he).app (by decide)).app ht).app (by decide)
  have q : Clean "\n    END;\n" := by decide
  exact (Fmt.pre p h).post q

/-- The driver makes the text with the parameters in it out of the text with placeholders. -/
theorem fmt_trigger {D : Dialect} (hD : DialectOk D) {t : PyTrigger} (h : TriggerFit D t) {name : String} (hn : Clean name) :
    Fmt D.backend (t.template D.backend name) (t.params D.backend) (t.text D.backend (sentLit D.backend) name) := by
  have ht := Clean.name h.table
  have hu := clean_upper t.event
  have a1 := fmt_actions hD (sep := "\n        ") (by decide) h.actions
  have a2 := fmt_actions hD (sep := "\n            ") (by decide) h.actions
  unfold PyTrigger.template PyTrigger.params
  revert a1 a2
  cases hb : D.backend with
  | sqlite =>
    intro a1 _
    have hw := clean_when hb h
    exact fmt_sqliteFrame hn hu ht hw a1
  | postgresql =>
    intro a1 a2
    have hc := clean_postgresConds hb h
    have hbody : Fmt .postgresql (postgresBody placeholder t)
        ((dedup (t.actions.map fun a => (endStmt (a.text .postgresql placeholder), a.params))).flatMap (·.2)) (postgresBody (sentLit .postgresql) t) := by
      unfold postgresBody
      split
      · exact a1
      · have p := ((by decide : Clean "IF ").app (Clean.join (sep := " AND ") (by decide) hc)).app (by decide : Clean " THEN\n            ")
        have q : Clean "\n        END IF;" := by decide
        exact (Fmt.pre p a2).post q
    exact fmt_postgresFrame hn hu ht hbody
  | mysql =>
    intro a1 a2
    have hc := clean_mysqlConds hb h
    have hbody : Fmt .mysql (mysqlBody placeholder t)
        ((dedup (t.actions.map fun a => (endStmt (a.text .mysql placeholder), a.params))).flatMap (·.2)) (mysqlBody (sentLit .mysql) t) := by
      unfold mysqlBody
      split
      · exact a1
      · have p := ((by decide : Clean "\n        IF ").app (Clean.join (sep := " OR ") (by decide) hc)).app (by decide : Clean " THEN\n            ")
        have q : Clean "\n        END IF;\n            " := by decide
        exact (Fmt.pre p a2).post q
    exact fmt_mysqlFrame hn hu ht hbody

theorem Fmt.executes {b : Backend} {t u : String} {ps : List Val} (h : Fmt b t ps u) : execute b t ps = some u := by
  have h1 := h.py [] []
  rw [List.append_nil, List.append_nil] at h1
  cases b with
  | sqlite =>
    have h2 := h.marks rfl []
    have h3 := h.count rfl []
    rw [List.append_nil] at h2 h3
    simp only [execute, h2, h3, countMarks, questionMarks, List.append_nil, Nat.add_zero, if_true, singlePercents_clean (h.clean rfl), String.ofList_toList]
  | mysql => simp only [execute, h1]; simp [pyFormat]
  | postgresql => simp only [execute, h1]; simp [pyFormat]

end Denorm
