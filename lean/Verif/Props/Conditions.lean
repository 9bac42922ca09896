import Verif.Lemmas.Quiet
import Verif.Lemmas.TriggerSet
import Verif.DemoFacts
/-!
# When triggers do nothing (C06, C07, C39)
-/
namespace Denorm

/-- What an UPDATE does by itself: every row of `t` that satisfies `w` is rewritten by `σ` (with some random number), every other row of
every table and the dirty table are as before. -/
structure OnlyUpdates (t : TableName) (w : Row → Bool) (σ : Int → Row → Row) (db db' : Db) : Prop where
  dirty : db'.dirty = db.dirty
  other : ∀ t', t' ≠ t → db'.rows t' = db.rows t'
  length : (db'.rows t).length = (db.rows t).length
  rows : ∀ (i : Nat) (r : Row), (db.rows t)[i]? = some r →
    if w r = true then ∃ x, (db'.rows t)[i]? = some (σ x r) else (db'.rows t)[i]? = some r

theorem QuietInv.only {t : TableName} {w : Row → Bool} {σ : Int → Row → Row} {db db' : Db} (h : QuietInv t w σ db [] db') :
    OnlyUpdates t w σ db db' :=
  ⟨h.dirty, h.other, h.length, fun i r hr => h.done i (by simp) r hr⟩

/-- The triggers that react to an UPDATE of table `t`. -/
def Engine.watchers (E : Engine) (t : TableName) : List DbTrigger :=
  E.triggers.filter fun tr => decide (tr.table = t) && decide (tr.event = .update)

/-- The statement leaves every watched column of every row it touches null-safely equal. -/
def LeavesWatched (E : Engine) (t : TableName) (w : Row → Bool) (σ : Int → Row → Row) (db : Db) : Prop :=
  ∀ tr ∈ E.watchers t, ∀ r ∈ db.rows t, w r = true → ∀ x, ∀ c ∈ tr.fields, σ x r c = r c

/-- The two cases in which the emitted condition is TRUE although nothing changed: on PostgreSQL the condition of a generic relation's
trigger, on MySQL a trigger without watched columns. -/
def FireAnyway (E : Engine) (tr : DbTrigger) : Prop :=
  (E.backend = .postgresql ∧ tr.ctField ≠ none) ∨ (E.backend = .mysql ∧ tr.fields = [])

theorem not_fires {E : Engine} {tr : DbTrigger} {t : TableName} {o n : Row} (he : tr.event = .update)
    (hF : ¬ FireAnyway E tr) (h : ∀ c ∈ tr.fields, n c = o c) : tr.fires E.backend ⟨t, .update, o, n⟩ = false := by
  have hc : changedCols tr.fields o n = false := changedCols_false.2 fun c hc => (h c hc).symm
  simp only [FireAnyway, not_or, not_and, ne_eq, Classical.not_not] at hF
  cases hb : E.backend <;> simp only [hb, true_implies, reduceCtorEq, false_implies, true_and, and_true] at hF
  · cases hcf : tr.ctField <;> simp [DbTrigger.fires, he, hc, hcf]
  · simp [DbTrigger.fires, he, hc, hF]
  · simp [DbTrigger.fires, he, hc, hF]

theorem silent_of {E : Engine} {t : TableName} {w : Row → Bool} {σ : Int → Row → Row} {db : Db}
    (hL : LeavesWatched E t w σ db) (hF : ∀ tr ∈ E.watchers t, ¬ FireAnyway E tr) : Silent E t w σ db := by
  intro r hr hw x fr
  rw [List.eq_nil_iff_forall_not_mem]
  intro it hit
  obtain ⟨tr, htr, hen, _⟩ := mem_fired.1 hit
  simp only [Engine.enters, Bool.and_eq_true, decide_eq_true_eq] at hen
  obtain ⟨⟨⟨h1, h2⟩, h3⟩, _⟩ := hen
  have hmem : tr ∈ E.watchers t := by simp [Engine.watchers, htr, h1, h2]
  rw [not_fires h2 (hF tr hmem) (hL tr hmem r hr hw x)] at h3
  simp at h3

/-- C06. An UPDATE that leaves the watched columns of the rows it touches as they are marks nothing and changes no other row; it never
fails. Missing: the two cases of `FireAnyway`, for which the property is false (below). -/
theorem C06_no_change_no_effect_partial {E : Engine} {t : TableName} {w : Row → Bool} {σ : Int → Row → Row} {db : Db}
    (hL : LeavesWatched E t w σ db) (hF : ∀ tr ∈ E.watchers t, ¬ FireAnyway E tr) :
    (∀ fuel db', E.exec fuel (.update t w σ) db = .ok db' → OnlyUpdates t w σ db db') ∧
    (∀ fuel, (db.rows t).length < fuel → ∃ db', E.exec fuel (.update t w σ) db = .ok db') := by
  refine ⟨fun fuel db' he => (quiet_exec_ok (silent_of hL hF) he).only, fun fuel hf => ?_⟩
  obtain ⟨db', h, _⟩ := quiet_exec (silent_of hL hF) hf
  exact ⟨db', h⟩

/-- C06 for a row among others: a row whose watched columns do not change sets off no trigger action, at any nesting depth, whatever the
statement does to other rows. -/
theorem C06_unchanged_row_fires_nothing_partial {E : Engine} {t : TableName} {o n : Row} {fr : Frame}
    (hL : ∀ tr ∈ E.watchers t, ∀ c ∈ tr.fields, n c = o c) (hF : ∀ tr ∈ E.watchers t, ¬ FireAnyway E tr) :
    E.fired fr ⟨t, .update, o, n⟩ = [] := by
  rw [List.eq_nil_iff_forall_not_mem]
  intro it hit
  obtain ⟨tr, htr, hen, _⟩ := mem_fired.1 hit
  simp only [Engine.enters, Bool.and_eq_true, decide_eq_true_eq] at hen
  obtain ⟨⟨⟨h1, h2⟩, h3⟩, _⟩ := hen
  have hmem : tr ∈ E.watchers t := by simp [Engine.watchers, htr, h1, h2]
  rw [not_fires h2 (hF tr hmem) (hL tr hmem)] at h3
  simp at h3

/-! ## C07 -/

/-- The models a declaration watches, each with the skip list given for it. -/
def Dep.skips (d : Dep) : List (Model × List String) :=
  match d.rel with
  | .forward _ => [(d.other, d.skip)]
  | .backward _ => [(d.other, d.skip)]
  | .forwardM2M (.m2m _) => [(d.other, d.skip)]
  | .backwardM2M (.m2m _) => [(d.other, d.skip)]
  | _ => []

def Denorm.skips : Denorm → List (Model × List String)
  | .callback bulkUnsafe m _ skip deps => (if bulkUnsafe then [] else [(m, skip)]) ++ deps.flatMap Dep.skips
  | .cacheKey _ _ deps => deps.flatMap Dep.skips
  | .aggregate a => [(a.related, a.skip)]

/-- The intermediate and generic tables a declaration watches: `skip=` does not apply to them. -/
def Dep.linkTables (d : Dep) : List TableName :=
  match d.rel with
  | .forwardM2M (.m2m m) => [m.through]
  | .backwardM2M (.m2m m) => [m.through]
  | .forwardM2M (.generic g) => [g.remoteTable]
  | .backwardM2M (.generic g) => [g.remoteTable]
  | _ => []

def Denorm.linkTables : Denorm → List TableName
  | .callback _ _ _ _ deps => deps.flatMap Dep.linkTables
  | .cacheKey _ _ deps => deps.flatMap Dep.linkTables
  | .aggregate _ => []

/-- The columns left out for a model with this skip list: the skip list, or, if that is empty, the model's `denorm_always_skip`. -/
def skippedBy (p : Model × List String) (c : Col) : Prop := c ∈ p.2 ∨ (p.2 = [] ∧ c ∈ p.1.alwaysSkip)

theorem dep_trigger_table {d : Dep} {f : Col} {g : PyTrigger} (h : g ∈ d.callbackTriggers ∨ g ∈ d.cacheKeyTriggers f) :
    (∃ p ∈ d.skips, g.table = p.1.table ∧ g.fields = watchedFields p.1 p.2 ∧ g.contentTypeField = none) ∨ g.table ∈ d.linkTables := by
  revert h
  rw [← List.mem_append]
  revert g
  rcases d with ⟨this, other, rel, skip⟩
  rcases rel with f0 | f0 | (m | gr) | (m | gr) <;>
    simp [Dep.callbackTriggers, Dep.cacheKeyTriggers, callbackM2MTriggers, cacheKeyM2MTriggers, Dep.skips, Dep.linkTables,
      mkTrigger, M2MLike.subject]

theorem trigger_table {D : List Denorm} {g : PyTrigger} (hg : g ∈ generated D) :
    ∃ dn ∈ D, (∃ p ∈ dn.skips, g.table = p.1.table ∧ g.fields = watchedFields p.1 p.2 ∧ g.contentTypeField = none) ∨
      g.table ∈ dn.linkTables := by
  obtain ⟨dn, hdn, hg⟩ := List.mem_flatMap.1 hg
  refine ⟨dn, hdn, ?_⟩
  cases dn with
  | callback bu m f skip deps =>
    simp only [Denorm.triggers, List.mem_append, List.mem_flatMap] at hg
    rcases hg with hg | ⟨d, hd, hg⟩
    · cases bu
      · simp only [Bool.false_eq_true, if_false, selfTriggers, List.mem_cons, List.not_mem_nil, or_false] at hg
        left
        exact ⟨(m, skip), by simp [Denorm.skips], by rcases hg with rfl | rfl <;> simp [mkTrigger]⟩
      · simp at hg
    · rcases dep_trigger_table (f := f) (.inl hg) with ⟨p, hp, h⟩ | h
      · exact .inl ⟨p, by simp only [Denorm.skips, List.mem_append, List.mem_flatMap]; exact .inr ⟨d, hd, hp⟩, h⟩
      · exact .inr (by simp only [Denorm.linkTables, List.mem_flatMap]; exact ⟨d, hd, h⟩)
  | cacheKey m f deps =>
    simp only [Denorm.triggers, List.mem_flatMap] at hg
    obtain ⟨d, hd, hg⟩ := hg
    rcases dep_trigger_table (.inr hg) with ⟨p, hp, h⟩ | h
    · exact .inl ⟨p, by simp only [Denorm.skips, List.mem_flatMap]; exact ⟨d, hd, hp⟩, h⟩
    · exact .inr (by simp only [Denorm.linkTables, List.mem_flatMap]; exact ⟨d, hd, h⟩)
  | aggregate a =>
    simp only [Denorm.triggers, AggDenorm.triggers, List.mem_cons, List.not_mem_nil, or_false] at hg
    left
    exact ⟨(a.related, a.skip), by simp [Denorm.skips], by rcases hg with rfl | rfl | rfl <;> simp [mkTrigger]⟩

theorem not_watched {p : Model × List String} {c : Col} (h : skippedBy p c) : c ∉ watchedFields p.1 p.2 := by
  intro hc
  simp only [watchedFields, List.mem_filter, Bool.not_eq_true', List.contains_eq_mem, decide_eq_false_iff_not, effectiveSkip] at hc
  rcases h with h | ⟨h1, h2⟩
  · have : p.2 ≠ [] := by intro e; rw [e] at h; simp at h
    simp [this, h] at hc
  · simp [h1, h2] at hc

/-- C07. If every declaration that watches table `t` skips the columns `C`, an UPDATE of `t` that changes only columns in `C` has no
effect beyond itself. Missing: a column in `denorm_always_skip` of a model for which a declaration also gives a `skip=` list, `skip=` of
a generic relation, and declarations that share a trigger name with one that does not skip the column (all three false, below); on
MySQL, skip lists that leave no column to watch (the condition is then always TRUE). -/
theorem C07_skipped_columns_partial {E : Engine} {D : List Denorm} (hE : Installed E D) {t : TableName} {w : Row → Bool}
    {σ : Int → Row → Row} {C : List Col} (hσ : ∀ x r c, c ∉ C → σ x r c = r c)
    (hskip : ∀ dn ∈ D, ∀ p ∈ dn.skips, p.1.table = t → ∀ c ∈ C, skippedBy p c)
    (hlink : ∀ dn ∈ D, t ∉ dn.linkTables)
    (hmy : E.backend = .mysql → ∀ dn ∈ D, ∀ p ∈ dn.skips, p.1.table = t →
      ∃ f ∈ p.1.fields, f.isLocal = true ∧ f.attname ∉ p.2 ++ p.1.alwaysSkip) {db : Db} :
    (∀ fuel db', E.exec fuel (.update t w σ) db = .ok db' → OnlyUpdates t w σ db db') ∧
    (∀ fuel, (db.rows t).length < fuel → ∃ db', E.exec fuel (.update t w σ) db = .ok db') := by
  have key : ∀ tr ∈ E.watchers t, ∃ dn ∈ D, ∃ p ∈ dn.skips, p.1.table = t ∧ tr.fields = watchedFields p.1 p.2 ∧ tr.ctField = none := by
    intro tr htr
    simp only [Engine.watchers, List.mem_filter, Bool.and_eq_true, decide_eq_true_eq] at htr
    obtain ⟨htr, h1, h2⟩ := htr
    rw [hE] at htr
    obtain ⟨g, hg, _, e1, _, e3, e4, _⟩ := installed_head htr
    obtain ⟨dn, hdn, ⟨p, hp, q1, q2, q3⟩ | h⟩ := trigger_table hg
    · exact ⟨dn, hdn, p, hp, by rw [← q1, ← e1, h1], by rw [e3, q2], by rw [e4, q3]⟩
    · exact absurd (by rw [← h1, e1]; exact h) (hlink dn hdn)
  apply C06_no_change_no_effect_partial
  · intro tr htr r _ _ x c hc
    obtain ⟨dn, hdn, p, hp, q1, q2, _⟩ := key tr htr
    apply hσ
    intro hcC
    exact not_watched (hskip dn hdn p hp q1 c hcC) (q2 ▸ hc)
  · intro tr htr hF
    obtain ⟨dn, hdn, p, hp, q1, q2, q3⟩ := key tr htr
    rcases hF with ⟨_, h⟩ | ⟨hb, h⟩
    · exact h q3
    · obtain ⟨f, hf, hl, hn⟩ := hmy hb dn hdn p hp q1
      have : f.attname ∈ tr.fields := by
        rw [q2, watchedFields, List.mem_filter]
        refine ⟨List.mem_map.2 ⟨f, List.mem_filter.2 ⟨hf, hl⟩, rfl⟩, ?_⟩
        simp only [List.mem_append, not_or] at hn
        simp only [effectiveSkip, Bool.not_eq_true', List.contains_eq_mem, decide_eq_false_iff_not]
        split
        · exact hn.1
        · simpa using hn.2
      rw [h] at this
      simp at this

/-! ## C39 -/

/-- The statement touches only rows whose column `c` holds `v`, before and after. -/
def OnlyRowsWith (c : Col) (v : Val) (db : Db) : Stmt → Prop
  | .insert _ rs => ∀ r ∈ rs, r c = v
  | .update t w σ => (∀ r ∈ db.rows t, w r = true → r c = v) ∧ ∀ x r, r c = v → σ x r c = v
  | .delete t w => ∀ r ∈ db.rows t, w r = true → r c = v

/-- The declaration is a `@denormalized` field. -/
def Denorm.IsCallback : Denorm → Prop
  | .callback .. => True
  | _ => False

/-- The marker's content type that an action writes; `none` for an UPDATE. -/
def Action.markType : Action → Option Nat
  | .markValues ct _ _ _ => some ct
  | .markSelect ct _ _ _ _ _ _ => some ct
  | .update _ => none

theorem dep_marks (d : Dep) : ∀ g ∈ d.callbackTriggers, ∀ a ∈ g.actions, a.markType = some g.contentType := by
  rcases d with ⟨this, other, rel, skip⟩
  rcases rel with f0 | f0 | (m | gr) | (m | gr) <;>
    simp [Dep.callbackTriggers, callbackM2MTriggers, mkTrigger, M2MLike.subject, Action.markType]

theorem callback_marks {D : List Denorm} (hD : ∀ dn ∈ D, dn.IsCallback) {g : PyTrigger} (hg : g ∈ generated D) {a : Action}
    (ha : a ∈ g.actions) : a.markType = some g.contentType := by
  obtain ⟨dn, hdn, hg⟩ := List.mem_flatMap.1 hg
  have := hD dn hdn
  cases dn with
  | callback bu m f skip deps =>
    simp only [Denorm.triggers, List.mem_append, List.mem_flatMap] at hg
    rcases hg with hg | ⟨d, hd, hg⟩
    · cases bu
      · simp only [Bool.false_eq_true, if_false, selfTriggers, List.mem_cons, List.not_mem_nil, or_false] at hg
        rcases hg with rfl | rfl <;> simp only [mkTrigger, List.mem_singleton] at ha <;> subst ha <;> rfl
      · simp at hg
    · exact dep_marks d g hg a ha
  | cacheKey m f deps => exact this.elim
  | aggregate a => exact this.elim

/-- Work that only concerns rows with `v` in column `c` and markers of content type `n`. -/
def CtItem (t : TableName) (c : Col) (v : Val) (n : Nat) (del : Bool) (db : Db) : Item → Prop
  | .write _ t' ops => t' = t ∧ ∀ op ∈ ops, match op with
    | .ins r => r c = v
    | .upd i σ => del = false ∧ (∀ r, (db.rows t)[i]? = some r → r c = v) ∧ ∀ x r, r c = v → σ x r c = v
    | .del w => del = true ∧ ∀ r ∈ db.rows t, w r = true → r c = v
  | .act _ _ a => a.markType = some n

theorem mem_eraseP {α : Type _} {w : α → Bool} {l : List α} {a : α} (h : a ∈ l.eraseP w) : a ∈ l :=
  List.mem_of_mem_eraseP h

/-- The invariant: all markers added are of content type `n`. -/
def CtInv (t : TableName) (c : Col) (v : Val) (n : Nat) (del : Bool) (db0 : Db) (W : List Item) (db : Db) : Prop :=
  (∀ it ∈ W, CtItem t c v n del db it) ∧ ∀ m ∈ db.dirty, m ∈ db0.dirty ∨ m.ct = n

theorem ctInv {E : Engine} {t : TableName} {c : Col} {v : Val} {n : Nat} {del : Bool} {db0 : Db}
    (hfire : ∀ fr ch, ch.table = t → ch.old c = v → ch.new c = v → ∀ it ∈ E.fired fr ch, ∃ fr' a, it = .act fr' ch a ∧ a.markType = some n) :
    StepInv E (CtInv t c v n del db0) where
  perm hp h := ⟨fun it hit => h.1 it (hp.mem_iff.2 hit), h.2⟩
  writeNil h := ⟨fun it hit => h.1 it (List.mem_cons_of_mem _ hit), h.2⟩
  writeOp := by
    intro fr t' op ops W db h
    obtain ⟨h1, h2⟩ := h
    have hw := h1 _ (List.mem_cons_self ..)
    obtain ⟨rfl, hops⟩ := hw
    have hop := hops op (List.mem_cons_self ..)
    -- the rows after the write, and what the pending writes know about them
    have hkeep : ∀ op' : RowOp, (match op' with
        | .ins r => r c = v
        | .upd i σ => del = false ∧ (∀ r, (db.rows t')[i]? = some r → r c = v) ∧ ∀ x r, r c = v → σ x r c = v
        | .del w => del = true ∧ ∀ r ∈ db.rows t', w r = true → r c = v) → (match op' with
        | .ins r => r c = v
        | .upd i σ => del = false ∧ (∀ r, ((applyOp E t' op db).1.rows t')[i]? = some r → r c = v) ∧ ∀ x r, r c = v → σ x r c = v
        | .del w => del = true ∧ ∀ r ∈ (applyOp E t' op db).1.rows t', w r = true → r c = v) := by
      intro op' ho'
      cases op with
      | ins r0 =>
        simp only at hop
        cases op' with
        | ins r => exact ho'
        | upd i σ =>
          refine ⟨ho'.1, fun r hr => ?_, ho'.2.2⟩
          simp only [applyOp, Db.setRows_same] at hr
          rcases Nat.lt_or_ge i (db.rows t').length with hl | hl
          · rw [List.getElem?_append_left hl] at hr; exact ho'.2.1 r hr
          · have := List.mem_of_getElem? hr
            rw [List.getElem?_append_right hl] at hr
            have := List.mem_of_getElem? hr
            rw [List.mem_singleton] at this
            exact this ▸ hop
        | del w =>
          refine ⟨ho'.1, fun r hr hwr => ?_⟩
          simp only [applyOp, Db.setRows_same, List.mem_append, List.mem_singleton] at hr
          rcases hr with hr | rfl
          · exact ho'.2 r hr hwr
          · exact hop
      | upd j σ' =>
        simp only at hop
        obtain ⟨hd, hj, hσ'⟩ := hop
        cases op' with
        | ins r => exact ho'
        | upd i σ =>
          refine ⟨ho'.1, fun r hr => ?_, ho'.2.2⟩
          simp only [applyOp] at hr
          split at hr
          · exact ho'.2.1 r hr
          · rename_i old hold
            simp only [Db.setRows_same] at hr
            by_cases hij : j = i
            · subst hij
              have hlt : j < (db.rows t').length := (List.getElem?_eq_some_iff.1 hold).1
              rw [List.getElem?_set_self hlt, Option.some.injEq] at hr
              exact hr ▸ hσ' _ _ (hj _ hold)
            · rw [List.getElem?_set_ne hij] at hr
              exact ho'.2.1 r hr
        | del w => rw [hd] at ho'; simp at ho'
      | del w0 =>
        simp only at hop
        cases op' with
        | ins r => exact ho'
        | upd i σ => rw [hop.1] at ho'; simp at ho'
        | del w =>
          refine ⟨ho'.1, fun r hr hwr => ?_⟩
          simp only [applyOp] at hr
          split at hr
          · exact ho'.2 r hr hwr
          · simp only [Db.setRows_same] at hr
            exact ho'.2 r (mem_eraseP hr) hwr
    have hold : ∀ it, CtItem t' c v n del db it → CtItem t' c v n del (applyOp E t' op db).1 it := by
      intro it hit
      cases it with
      | write fr1 t1 ops1 =>
        obtain ⟨rfl, h⟩ := hit
        exact ⟨rfl, fun op' ho' => hkeep op' (h op' ho')⟩
      | act fr1 ch a => exact hit
    refine ⟨?_, by rw [applyOp_dirty]; exact h2⟩
    intro it hit
    rcases List.mem_cons.1 hit with rfl | hit
    · exact hold _ ⟨rfl, fun op' ho' => hops op' (List.mem_cons_of_mem _ ho')⟩
    rcases List.mem_append.1 hit with hit | hit
    · obtain ⟨ch, hch, hit⟩ := List.mem_flatMap.1 hit
      have : ch.table = t' ∧ ch.old c = v ∧ ch.new c = v := by
        cases op with
        | ins r =>
          simp only [applyOp, List.mem_singleton] at hch
          subst hch
          exact ⟨rfl, hop, hop⟩
        | upd i σ =>
          simp only [applyOp] at hch
          split at hch
          · simp at hch
          · rename_i old hold
            simp only [List.mem_singleton] at hch
            subst hch
            exact ⟨rfl, hop.2.1 _ hold, hop.2.2 _ _ (hop.2.1 _ hold)⟩
        | del w =>
          simp only [applyOp] at hch
          split at hch
          · simp at hch
          · rename_i old hold
            simp only [List.mem_singleton] at hch
            subst hch
            have := hop.2 old (List.mem_of_find?_eq_some hold) (List.find?_some hold)
            exact ⟨rfl, this, this⟩
      obtain ⟨fr', a, rfl, ha⟩ := hfire fr ch this.1 this.2.1 this.2.2 it hit
      exact ha
    · exact hold it (h1 it (List.mem_cons_of_mem _ hit))
  markValues := by
    intro fr ch ct s c' q W db h
    have ha := h.1 _ (List.mem_cons_self ..)
    refine ⟨fun it hit => ?_, fun m hm => ?_⟩
    · have := h.1 it (List.mem_cons_of_mem _ hit)
      cases it <;> exact this
    · rw [Db.addMarks_dirty, List.mem_append, List.mem_singleton] at hm
      rcases hm with hm | rfl
      · exact h.2 m hm
      · simp only [CtItem, Action.markType, Option.some.injEq] at ha
        exact .inr ha
  markSelect := by
    intro fr ch ct sel t1 k s c' q W db h
    have ha := h.1 _ (List.mem_cons_self ..)
    refine ⟨fun it hit => ?_, fun m hm => ?_⟩
    · have := h.1 it (List.mem_cons_of_mem _ hit)
      cases it <;> exact this
    · rw [Db.addMarks_dirty, List.mem_append, mem_selectMarks] at hm
      rcases hm with hm | ⟨r, _, _, rfl⟩
      · exact h.2 m hm
      · simp only [CtItem, Action.markType, Option.some.injEq] at ha
        exact .inr ha
  update := by
    intro fr ch u W db _ h
    have ha := h.1 _ (List.mem_cons_self ..)
    simp [CtItem, Action.markType] at ha

/-- C39, sqlite and PostgreSQL. `t` is a table with a content type column `c` that is watched through generic relations only. A
statement on `t` that touches only rows that belong to content type `n`, before and after, adds only markers of content type `n`, whatever
primary keys other models have. Missing: MySQL, where it is false (below), and declarations that share a trigger name but differ in what
they watch. -/
theorem C39_no_foreign_marks_partial {E : Engine} {D : List Denorm} (hE : Installed E D) (hb : E.backend ≠ .mysql)
    (hA : AgreeOnWatch E.backend D) (hcb : ∀ dn ∈ D, dn.IsCallback) {t : TableName} {c : Col}
    (hgen : ∀ g ∈ generated D, g.table = t → g.contentTypeField = some c) {n : Nat} {s : Stmt} (hs : s.table = t)
    {db db' : Db} (honly : OnlyRowsWith c (.int n) db s) {fuel : Nat} (he : E.exec fuel s db = .ok db') :
    ∀ m ∈ db'.dirty, m ∈ db.dirty ∨ m.ct = n := by
  have hfire : ∀ fr ch, ch.table = t → ch.old c = .int n → ch.new c = .int n → ∀ it ∈ E.fired fr ch,
      ∃ fr' a, it = .act fr' ch a ∧ a.markType = some n := by
    intro fr ch hch ho hn it hit
    obtain ⟨tr, htr, hen, a, ha, rfl⟩ := mem_fired.1 hit
    refine ⟨_, a, rfl, ?_⟩
    simp only [Engine.enters, Bool.and_eq_true, decide_eq_true_eq] at hen
    obtain ⟨⟨⟨h1, h2⟩, h3⟩, _⟩ := hen
    have htr' := htr
    rw [hE] at htr'
    obtain ⟨g, hg, q0, q1, _, _, q4, q5⟩ := installed_head htr'
    obtain ⟨g', hg', r0, r1⟩ := installed_origin htr' ha
    obtain ⟨_, _, _, e4⟩ := hA g hg g' hg' (q0.trans r0.symm)
    have hct : g.contentTypeField = some c := hgen g hg (by rw [← q1, h1, hch])
    have hcte : g.contentType = g'.contentType := (e4 hb).2 (by simp [hct])
    rw [callback_marks hcb hg' r1, ← hcte, ← q5]
    rw [hct] at q4
    simp only [DbTrigger.fires, q4] at h3
    have hint : ∀ k : Nat, hasCt c k ch.old = true ∨ hasCt c k ch.new = true → k = n := by
      intro k hk
      simp only [hasCt, ho, hn, Val.sqlEq_iff, or_self, ne_eq, reduceCtorEq, not_false_eq_true, and_true, Val.int.injEq] at hk
      omega
    cases hev : tr.event <;> cases hbb : E.backend <;> simp only [hev, hbb, Bool.and_eq_true, Bool.or_eq_true] at h3
    · rw [hint _ (.inr h3)]
    · exact absurd hbb hb
    · rw [hint _ (.inr h3)]
    · rw [hint _ h3.2]
    · exact absurd hbb hb
    · rw [hint _ (h3.imp (·.2) id)]
    · rw [hint _ (.inl h3)]
    · exact absurd hbb hb
    · rw [hint _ (.inl h3)]
  obtain ⟨del, hdel⟩ : ∃ del : Bool, del = match s with
    | .delete .. => true
    | _ => false := ⟨_, rfl⟩
  have := (ctInv (del := del) (db0 := db) hfire).exec he ⟨?_, fun m hm => .inl hm⟩
  · exact this.2
  · intro it hit
    obtain ⟨l, rfl, hl⟩ := mem_writes hit
    refine ⟨hs, fun op ho => ?_⟩
    have hop := hl op ho
    cases s with
    | insert t' rs =>
      simp only [Stmt.ops, List.mem_map] at hop
      obtain ⟨r, hr, rfl⟩ := hop
      exact honly r hr
    | update t' w σ =>
      obtain rfl : t' = t := hs
      simp only [Stmt.ops, List.mem_map] at hop
      obtain ⟨i, hi, rfl⟩ := hop
      obtain ⟨r, hr, hw⟩ := mem_targetsOf.1 hi
      refine ⟨hdel, fun r' hr' => ?_, honly.2⟩
      rw [hr, Option.some.injEq] at hr'
      exact hr' ▸ honly.1 r (List.mem_of_getElem? hr) hw
    | delete t' w =>
      obtain rfl : t' = t := hs
      simp only [Stmt.ops, List.mem_map] at hop
      obtain ⟨i, hi, rfl⟩ := hop
      exact ⟨hdel, honly⟩

/-! ## Examples and violations -/

set_option maxRecDepth 100000

namespace Demo

/-- C06: setting forum 1's title to the title it has. -/
def sameTitle : Stmt := .update "forum" (fun r => r "id" == .int 1) (fun _ r => r.set "title" (.text "A"))

example (b : Backend) : LeavesWatched (engine b) "forum" (fun r => r "id" == .int 1) (fun _ r => r.set "title" (.text "A")) db ∧
    (∀ tr ∈ (engine b).watchers "forum", ¬ FireAnyway (engine b) tr) ∧ (engine b).watchers "forum" ≠ [] := by
  refine ⟨?_, ?_, ?_⟩
  · intro tr _ r hr hw x c _
    have hr' : r ∈ [frow 1 "A" "xy" "t" 2, frow 2 "B" "" "" 0] := hr
    simp only [List.mem_cons, List.not_mem_nil, or_false] at hr'
    rcases hr' with rfl | rfl
    · by_cases hc : c = "title"
      · subst hc; rfl
      · simp [Row.set, hc]
    · exact absurd hw (by decide)
  · unfold FireAnyway; cases b <;> decide
  · cases b <;> decide

/-- The same statement with another title does have an effect. -/
example : ∃ db', (engine .sqlite).exec 100 (.update "forum" (fun r => r "id" == .int 1) (fun _ r => r.set "title" (.text "Z"))) db =
    .ok db' ∧ db'.dirty = [⟨1, .int 1⟩, ⟨2, .int 1⟩, ⟨2, .int 2⟩] := ok_of (by decide)

end Demo

/-- C06 is violated on PostgreSQL: `UPDATE tag SET name = name` marks the forum the tag belongs to, because in
`IF (changed) AND (OLD.ct = 1) OR (NEW.ct = 1)` the AND binds tighter. -/
theorem C06_violated_on_postgresql :
    Installed (Demo.engine .postgresql) Demo.decls ∧
    LeavesWatched (Demo.engine .postgresql) "tag" (fun _ => true) (fun _ r => r) Demo.db ∧
    ∃ db', (Demo.engine .postgresql).exec 100 (.update "tag" (fun _ => true) (fun _ r => r)) Demo.db = .ok db' ∧
      Demo.db.dirty = [] ∧ ⟨1, .int 1⟩ ∈ db'.dirty := by
  refine ⟨Demo.installed _, fun _ _ _ _ _ _ _ _ => rfl, ok_of (by decide)⟩

/-- .. and on sqlite nothing is marked. -/
example : ∃ db', (Demo.engine .sqlite).exec 100 (.update "tag" (fun _ => true) (fun _ r => r)) Demo.db = .ok db' ∧
    db'.dirty = [] := ok_of (by decide)

namespace Skip

open Demo (fld fkf row)

/-- A post with time stamps; `denorm_always_skip` as given. -/
def post (always : List String) : Model :=
  { repr := "<class 'app.Post'>", appLabel := "app", name := "Post", table := "post", pkTable := "post", pk := "id", ct := 1,
    fields := [fld "id", fld "text", fld "created_on", fld "updated_on"], alwaysSkip := always }

def postFk : Field := fkf "post" "<class 'app.Post'>"

/-- Two models of comments on posts. -/
def comment (n : Nat) (name : String) : Model :=
  { repr := name, appLabel := "app", name := name, table := name, pkTable := name, pk := "id", ct := n,
    fields := [fld "id", postFk, fld "post_text"] }

/-- `post_text`, which depends on the post with a skip list. -/
def postText (n : Nat) (name : String) (always skip : List String) : Denorm :=
  .callback false (comment n name) "post_text" [] [⟨comment n name, post always, .forward postFk, skip⟩]

def db : Db := ⟨fun t =>
  if t = "post" then [row [("id", .int 1), ("text", .text "x"), ("created_on", .int 0), ("updated_on", .int 0)]]
  else if t = "a" then [row [("id", .int 1), ("post_id", .int 1), ("post_text", .text "x")]]
  else if t = "b" then [row [("id", .int 7), ("post_id", .int 1), ("post_text", .text "x")]]
  else [], [], 0⟩

/-- `Post.objects.update(updated_on=1)` -/
def touch : Stmt := .update "post" (fun _ => true) (fun _ r => r.set "updated_on" (.int 1))

def engine (b : Backend) (D : List Denorm) : Engine := ⟨b, installedTriggers b D, fun _ => 0⟩

/-- The hypotheses of C07 are met by one declaration that skips the column and one model that always skips it. -/
example (b : Backend) : Installed (engine b [postText 2 "a" [] ["updated_on"]]) [postText 2 "a" [] ["updated_on"]] ∧
    (∀ x r c, c ∉ ["updated_on"] → (fun (_ : Int) (r : Row) => r.set "updated_on" (.int 1)) x r c = r c) ∧
    (∀ dn ∈ [postText 2 "a" [] ["updated_on"]], ∀ p ∈ dn.skips, p.1.table = "post" → ∀ c ∈ ["updated_on"], skippedBy p c) ∧
    (∀ dn ∈ [postText 2 "a" [] ["updated_on"]], "post" ∉ dn.linkTables) ∧
    (∀ dn ∈ [postText 2 "a" [] ["updated_on"]], ∀ p ∈ dn.skips, p.1.table = "post" →
      ∃ f ∈ p.1.fields, f.isLocal = true ∧ f.attname ∉ p.2 ++ p.1.alwaysSkip) := by
  refine ⟨rfl, ?_, by unfold skippedBy; decide, by decide, by decide⟩
  intro x r c hc
  simp only [List.mem_singleton] at hc
  simp [Row.set, hc]

example : ∀ dn ∈ [postText 2 "a" ["updated_on"] []], ∀ p ∈ dn.skips, p.1.table = "post" → ∀ c ∈ ["updated_on"], skippedBy p c := by
  unfold skippedBy; decide

example : ∃ db', (engine .sqlite [postText 2 "a" [] ["updated_on"]]).exec 100 touch db = .ok db' ∧ db'.dirty = [] := ok_of (by decide)

end Skip

/-- C07 is violated: `updated_on` is in the post's `denorm_always_skip`, but a declaration that also gives `skip=('created_on',)` reacts
to it. (`skip or () + always` is `skip or (() + always)`.) -/
theorem C07_violated_always_skip :
    "updated_on" ∈ (Skip.post ["updated_on"]).alwaysSkip ∧
    ∃ db', (Skip.engine .sqlite [Skip.postText 2 "a" ["updated_on"] ["created_on"]]).exec 100 Skip.touch Skip.db = .ok db' ∧
      db'.dirty = [⟨2, .int 1⟩] :=
  ⟨by decide, ok_of (by decide)⟩

/-- C07 is violated: the declaration of model "b" lists `updated_on` in `skip=`, but an earlier declaration of model "a" does not; "b"'s
instance is marked too. -/
theorem C07_violated_shared_trigger :
    ∃ db', (Skip.engine .sqlite [Skip.postText 2 "a" [] [], Skip.postText 3 "b" [] ["updated_on"]]).exec 100 Skip.touch Skip.db =
      .ok db' ∧ db'.dirty = [⟨2, .int 1⟩, ⟨3, .int 7⟩] :=
  ok_of (by decide)

/-- C07 is violated: `skip=` has no effect on a generic relation (base.py:94-98). Forum skips the tag's `name` but is marked when it
changes. -/
theorem C07_violated_generic :
    ∃ db', (Skip.engine .sqlite [.callback false Demo.forum "tags_string" []
        [⟨Demo.forum, Demo.tag, .forwardM2M (.generic Demo.tagRel), ["name"]⟩]]).exec 100
      (.update "tag" (fun _ => true) (fun _ r => r.set "name" (.text "u"))) Demo.db = .ok db' ∧ db'.dirty = [⟨1, .int 1⟩, ⟨1, .int 1⟩] :=
  ok_of (by decide)

/-- C06 is violated on MySQL for a skip list that names every column: the condition is left out and the trigger always fires. -/
theorem C06_violated_on_mysql :
    LeavesWatched (Skip.engine .mysql [Skip.postText 2 "a" [] ["id", "text", "created_on", "updated_on"]]) "post" (fun _ => true)
      (fun _ r => r) Skip.db ∧
    ∃ db', (Skip.engine .mysql [Skip.postText 2 "a" [] ["id", "text", "created_on", "updated_on"]]).exec 100
      (.update "post" (fun _ => true) (fun _ r => r)) Skip.db = .ok db' ∧ db'.dirty = [⟨2, .int 1⟩] :=
  ⟨fun _ _ _ _ _ _ _ _ => rfl, ok_of (by decide)⟩

namespace Generic

/-- Forum and Post both have tags. -/
def decls : List Denorm :=
  [.callback false Demo.forum "tags_string" [] [⟨Demo.forum, Demo.tag, .forwardM2M (.generic Demo.tagRel), []⟩],
   .callback false Demo.post "tags_string" [] [⟨Demo.post, Demo.tag, .forwardM2M (.generic Demo.tagRel), []⟩]]

/-- A new tag on post 1 (content type 2). There is also a forum 1. -/
def tagPost : Stmt := .insert "tag" [Demo.trow 2 "u" 2 1]

/-- The hypotheses of C39 are met .. -/
example (b : Backend) : Installed (Skip.engine b decls) decls ∧ AgreeOnWatch b decls ∧ (∀ dn ∈ decls, dn.IsCallback) ∧
    (∀ g ∈ generated decls, g.table = "tag" → g.contentTypeField = some "content_type_id") ∧
    OnlyRowsWith "content_type_id" (.int 2) Demo.db tagPost := by
  refine ⟨rfl, by cases b <;> decide, by simp [decls, Denorm.IsCallback], by decide, ?_⟩
  intro r hr
  rw [List.mem_singleton.1 hr]
  decide

/-- .. and the post is marked. -/
example : ∃ db', (Skip.engine .postgresql decls).exec 100 tagPost Demo.db = .ok db' ∧ db'.dirty = [⟨2, .int 1⟩] := ok_of (by decide)

end Generic

/-- C39 is violated on MySQL: a tag on post 1 also marks forum 1. -/
theorem C39_violated_on_mysql :
    Installed (Skip.engine .mysql Generic.decls) Generic.decls ∧
    OnlyRowsWith "content_type_id" (.int 2) Demo.db Generic.tagPost ∧
    ∃ db', (Skip.engine .mysql Generic.decls).exec 100 Generic.tagPost Demo.db = .ok db' ∧ Demo.db.dirty = [] ∧
      ⟨1, .int 1⟩ ∈ db'.dirty := by
  refine ⟨rfl, ?_, ok_of (by decide)⟩
  intro r hr
  rw [List.mem_singleton.1 hr]
  decide

end Denorm
