import Verif.Spec.Install
import Verif.Lemmas.Names
import Verif.Lemmas.Merge
/-!
# Lemmas on creating and dropping triggers
-/
namespace Denorm

theorem like_nil_pct (fold : Char → Char) (s : List Char) : (suffixes s).any (like fold []) = true := by
  induction s with
  | nil => rfl
  | cons c s ih => simp only [suffixes, List.any_cons, ih, Bool.or_true]

theorem like_pct (fold : Char → Char) (ps s : List Char) : like fold ('%' :: ps) s = (suffixes s).any (like fold ps) := by
  cases s <;> simp [like]

theorem like_nil (fold : Char → Char) (p : Char) (ps : List Char) (hp : p ≠ '%') : like fold (p :: ps) [] = false := by
  simp [like, hp]

theorem like_cons (fold : Char → Char) (p c : Char) (ps cs : List Char) (hp : p ≠ '%') :
    like fold (p :: ps) (c :: cs) = ((p = '_' || fold p == fold c) && like fold ps cs) := by
  simp [like, hp]

theorem like_pcts (fold : Char → Char) (s : List Char) : like fold ['%', '%'] s = true := by
  have : ∀ s, like fold ['%'] s = true := fun s => by rw [like_pct]; exact like_nil_pct fold s
  rw [like_pct]
  cases s with
  | nil => simp [suffixes, this]
  | cons c s => simp only [suffixes, List.any_cons, this, Bool.true_or]

theorem like_denorm (fold : Char → Char) (h0 : ("denorm".toList.map fold) = "denorm".toList) (s : List Char) :
    like fold "denorm_%%".toList s = true ↔ "denorm".toList <+: s.map fold ∧ 7 ≤ s.length := by
  have hp : "denorm_%%".toList = ['d', 'e', 'n', 'o', 'r', 'm', '_', '%', '%'] := by decide
  have hq : "denorm".toList = ['d', 'e', 'n', 'o', 'r', 'm'] := by decide
  rw [hq] at h0
  simp only [List.map_cons, List.map_nil, List.cons.injEq, and_true] at h0
  obtain ⟨e1, e2, e3, e4, e5, e6⟩ := h0
  rw [hp, hq]
  rcases s with _ | ⟨c1, _ | ⟨c2, _ | ⟨c3, _ | ⟨c4, _ | ⟨c5, _ | ⟨c6, _ | ⟨c7, s⟩⟩⟩⟩⟩⟩⟩
  all_goals simp (config := { decide := true }) [like_cons, like_nil, e1, e2, e3, e4, e5, e6, like_pcts, List.cons_prefix_cons]

theorem dropsName_iff (b : Backend) (name : String) : dropsName b name = true ↔ Reserved b name := by
  cases b with
  | sqlite => exact like_denorm Char.toLower (by decide) name.toList
  | postgresql =>
    have := like_denorm id (by decide) name.toList
    rw [List.map_id] at this
    exact this
  | mysql => simp [dropsName, Reserved]

/-! ## Names -/

theorem baseName_prefix (e : Event) (t : TableName) : "denorm_after_row_".toList <+: (baseName e t).toList := by
  rw [baseName_eq]
  simp only [String.toList_append, List.append_assoc]
  exact List.prefix_append ..

theorem name_prefix (b : Backend) (t : PyTrigger) : "denorm_after_row_".toList <+: (t.name b).toList := by
  have : ∀ s : String, "denorm_after_row_".toList <+: (baseName t.event t.table ++ "_" ++ s).toList := fun s => by
    rw [baseName_suffix]; exact baseName_prefix ..
  unfold PyTrigger.name
  split
  · exact baseName_prefix ..
  · exact baseName_prefix ..
  · exact this _

theorem prefix_take {α : Type _} {p l : List α} {n : Nat} (h : p <+: l) (hn : p.length ≤ n) : p <+: l.take n := by
  obtain ⟨r, rfl⟩ := h
  rw [List.take_append, List.take_of_length_le hn]
  exact List.prefix_append ..

theorem createdName_prefix' (b : Backend) (hash : String → String) (draw : String) {name : String} {pre : List Char} (hl : pre.length ≤ 45)
    (hm : pre.map Char.toLower = pre) (h : pre <+: name.toList) : pre <+: (createdName b hash draw name).toList := by
  cases b with
  | sqlite => exact h
  | mysql =>
    simp only [createdName]
    split
    · rw [String.toList_append, String.toList_ofList]
      exact (prefix_take h hl).trans (List.prefix_append ..)
    · exact h
  | postgresql =>
    have h1 : pre <+: (truncateName hash name (63 - 5)).toList := by
      unfold truncateName
      split
      · exact h
      · rw [String.toList_append, String.toList_ofList]
        exact (prefix_take h (by omega)).trans (List.prefix_append ..)
    simp only [createdName, lower, String.toList_ofList]
    obtain ⟨r, hr⟩ := h1
    rw [← hr, List.map_append, hm]
    exact List.prefix_append ..

theorem createdName_prefix (b : Backend) (hash : String → String) (draw : String) {name : String}
    (h : "denorm_after_row_".toList <+: name.toList) : "denorm_after_row_".toList <+: (createdName b hash draw name).toList :=
  createdName_prefix' b hash draw (by decide) (by decide) h

theorem reserved_of_prefix (b : Backend) {name : String} (h : "denorm_after_row_".toList <+: name.toList) : Reserved b name := by
  obtain ⟨r, hr⟩ := h
  have hl : 7 ≤ name.length := by
    have := congrArg List.length hr
    simp only [List.length_append, String.length_toList] at this
    have h2 : "denorm_after_row_".toList.length = 17 := by decide
    rw [String.length_toList] at h2
    omega
  cases b with
  | sqlite =>
    refine ⟨?_, hl⟩
    rw [← hr, List.map_append]
    exact List.IsPrefix.trans (by decide : "denorm".toList <+: "denorm_after_row_".toList.map Char.toLower) (List.prefix_append ..)
  | postgresql =>
    refine ⟨?_, hl⟩
    rw [← hr]
    exact List.IsPrefix.trans (by decide : "denorm".toList <+: "denorm_after_row_".toList) (List.prefix_append ..)
  | mysql =>
    show _ <+: _
    rw [← hr]
    exact List.IsPrefix.trans (by decide : "denorm_".toList <+: "denorm_after_row_".toList) (List.prefix_append ..)

/-! ## Sequences of statements -/

theorem Server.set_same (s : Server) (a : String) (c : Catalog) : s.set a c a = c := by simp [Server.set]
theorem Server.set_other (s : Server) {a a' : String} (c : Catalog) (h : a' ≠ a) : s.set a c a' = s a' := by simp [Server.set, h]
theorem Server.set_self (s : Server) (a : String) : s.set a (s a) = s := by
  funext x; simp only [Server.set]; split
  · rename_i h; rw [h]
  · rfl
theorem Server.set_set (s : Server) (a : String) (c c' : Catalog) : (s.set a c).set a c' = s.set a c' := by
  funext x; simp only [Server.set]; split <;> rfl

/-- Creating triggers adds a prefix of them, and all of them if it does not fail. -/
theorem run_creates {b : Backend} {fails : Nat → Bool} {hash : String → String} {draws : Nat → String} : ∀ {ts : TriggerSet} {n m : Nat}
    {c : Catalog}, ∃ l, l <+: expectedTriggers b hash draws m ts ∧ (runDdl b fails n (installStmts b hash draws m ts) c).1 = c ++ l ∧
      ((runDdl b fails n (installStmts b hash draws m ts) c).2 = true → l = expectedTriggers b hash draws m ts)
  | [], n, m, c => ⟨[], List.nil_prefix, by simp [runDdl, installStmts], fun _ => rfl⟩
  | p :: ts, n, m, c => by
    simp only [installStmts, runDdl, expectedTriggers]
    split
    · exact ⟨[], List.nil_prefix, by simp, by simp⟩
    · cases h : Ddl.run b c (.create (createdTrigger b hash (draws m) p)) with
      | none => exact ⟨[], List.nil_prefix, by simp, by simp⟩
      | some c' =>
        simp only [Ddl.run] at h
        split at h
        · cases h
          obtain ⟨l, h1, h2, h3⟩ := run_creates (b := b) (fails := fails) (hash := hash) (draws := draws) (ts := ts) (n := n + 1) (m := m + 1)
            (c := c ++ [createdTrigger b hash (draws m) p])
          exact ⟨createdTrigger b hash (draws m) p :: l, by simpa using h1, by simp [h2], fun h => by rw [h3 h]⟩
        · simp at h

theorem expected_own {b : Backend} {hash : String → String} {draws : Nat → String} : ∀ {ts : TriggerSet} {m : Nat},
    (∀ p ∈ ts, "denorm_after_row_".toList <+: p.1.toList) → ∀ t ∈ expectedTriggers b hash draws m ts, Reserved b t.name
  | [], _, _, t, ht => by simp [expectedTriggers] at ht
  | p :: ts, m, h, t, ht => by
    rcases List.mem_cons.1 ht with ht | ht
    · rw [ht]
      exact reserved_of_prefix b (createdName_prefix b hash (draws m) (h p (List.mem_cons_self ..)))
    · exact expected_own (fun p hp => h p (List.mem_cons_of_mem _ hp)) t ht

theorem built_names {b : Backend} {D : List Denorm} : ∀ p ∈ buildTriggerset b D, "denorm_after_row_".toList <+: p.1.toList := by
  intro p hp
  have h : p.2.compile p.1 ∈ installedTriggers b D := List.mem_map.2 ⟨p, hp, rfl⟩
  obtain ⟨g, _, h1, _⟩ := installed_head h
  have : p.1 = g.name b := h1.symm
  rw [this]
  exact name_prefix b g

theorem named_self (b : Backend) (t : CatTrigger) : t.named b t.name t.table = true := by
  cases b <;> simp [CatTrigger.named]

theorem lower_inj_map {a c : String} (h : lower a = lower c) : a.toList.map Char.toLower = c.toList.map Char.toLower := by
  have := congrArg String.toList h
  simpa [lower] using this

theorem named_reserved {b : Backend} {t : CatTrigger} {name : String} {table : TableName} (h : t.named b name table = true)
    (hr : Reserved b name) : Reserved b t.name := by
  cases b with
  | sqlite =>
    simp only [CatTrigger.named, beq_iff_eq] at h
    have h1 := lower_inj_map h
    have h2 := congrArg List.length h1
    simp only [List.length_map, String.length_toList] at h2
    exact ⟨by rw [h1]; exact hr.1, by rw [h2]; exact hr.2⟩
  | postgresql =>
    simp only [CatTrigger.named, Bool.and_eq_true, beq_iff_eq] at h
    rw [h.1]; exact hr
  | mysql =>
    simp only [CatTrigger.named, beq_iff_eq] at h
    rw [h]; exact hr

theorem keep_all (c : Catalog) : c.filter (fun _ => true) = c := List.filter_eq_self.2 fun _ _ => rfl

/-- Dropping triggers removes reserved ones only, and all that are listed if it does not fail. -/
theorem run_drops {b : Backend} {fails : Nat → Bool} : ∀ {l : List CatTrigger} {n : Nat} {c : Catalog}, (∀ t ∈ l, Reserved b t.name) →
    ∃ q : CatTrigger → Bool, (runDdl b fails n (l.map fun t => .drop t.name t.table) c).1 = c.filter q ∧
      (∀ t, ¬ Reserved b t.name → q t = true) ∧
      ((runDdl b fails n (l.map fun t => .drop t.name t.table) c).2 = true → ∀ t ∈ l, q t = false)
  | [], n, c, _ => ⟨fun _ => true, by rw [keep_all]; rfl, fun _ _ => rfl, by simp⟩
  | t :: l, n, c, h => by
    simp only [List.map_cons, runDdl]
    split
    · exact ⟨fun _ => true, by rw [keep_all], fun _ _ => rfl, by simp⟩
    · cases hr : Ddl.run b c (.drop t.name t.table) with
      | none => exact ⟨fun _ => true, by rw [keep_all], fun _ _ => rfl, by simp⟩
      | some c' =>
        simp only [Ddl.run] at hr
        split at hr
        · cases hr
          obtain ⟨q, h1, h2, h3⟩ := run_drops (b := b) (fails := fails) (l := l) (n := n + 1)
            (c := c.filter fun t' => !t'.named b t.name t.table) fun t ht => h t (List.mem_cons_of_mem _ ht)
          refine ⟨fun t' => !t'.named b t.name t.table && q t', ?_, ?_, ?_⟩
          · simp only [h1, List.filter_filter]
            congr 1
            funext t'
            rw [Bool.and_comm]
          · intro t' ht'
            have : t'.named b t.name t.table = false := by
              cases hn : t'.named b t.name t.table
              · rfl
              · exact absurd (named_reserved hn (h t (List.mem_cons_self ..))) ht'
            simp [this, h2 t' ht']
          · intro hok t' ht'
            rcases List.mem_cons.1 ht' with e | ht'
            · simp [e, named_self]
            · simp [h3 hok t' ht']
        · simp at hr

/-- What `drop_triggers()` does to the catalogue of its database. -/
theorem drop_catalog {b : Backend} {fails : Nat → Bool} {c : Catalog} : ∃ q : CatTrigger → Bool,
    (runDdl b fails 0 (dropStmts b c) c).1 = c.filter q ∧ (∀ t, ¬ Reserved b t.name → q t = true) ∧
    ((runDdl b fails 0 (dropStmts b c) c).2 = true → ∀ t ∈ c, q t = true ↔ ¬ Reserved b t.name) := by
  obtain ⟨q, h1, h2, h3⟩ := run_drops (b := b) (fails := fails) (n := 0) (c := c) (l := c.filter fun t => dropsName b t.name)
    fun t ht => (dropsName_iff b t.name).1 (List.mem_filter.1 ht).2
  refine ⟨q, h1, h2, fun hok t ht => ⟨fun hq hr => ?_, h2 t⟩⟩
  have := h3 hok t (List.mem_filter.2 ⟨ht, (dropsName_iff b t.name).2 hr⟩)
  rw [hq] at this
  simp at this

theorem transact_using {b : Backend} {fails : Nat → Bool} {u : String} {ss : List Ddl} {s s' : Server} (h : transact b fails u ss s = (s', true)) :
    (runDdl b fails 0 ss (s u)).2 = true ∧ s' = s.set u (runDdl b fails 0 ss (s u)).1 := by
  unfold transact at h
  simp only at h
  split at h
  · rename_i hr
    simp only [Prod.mk.injEq, and_true] at h
    exact ⟨hr, h.symm⟩
  · split at h <;> simp at h

theorem transact_mem {b : Backend} {fails : Nat → Bool} {u : String} {ss : List Ddl} {s : Server} {a : String} {t : CatTrigger}
    (h : t ∈ (transact b fails u ss s).1 a) : t ∈ s a ∨ t ∈ (runDdl b fails 0 ss (s u)).1 := by
  have hset : ∀ {c : Catalog}, t ∈ s.set u c a → t ∈ s a ∨ t ∈ c := by
    intro c h
    simp only [Server.set] at h
    split at h
    · exact .inr h
    · exact .inl h
  unfold transact at h
  simp only at h
  split at h
  · exact hset h
  · split at h
    · exact hset h
    · simp only [Server.set] at h
      split at h
      · rename_i he; rw [he]; exact .inl h
      · split at h
        · exact .inr h
        · exact .inl h

/-- Every trigger of django-denorm has a reserved name, whatever happened. -/
theorem administered_reserved {b : Backend} {s : Server} (h : Administered b s) : ∀ a, ∀ t ∈ s a, t.own = true → Reserved b t.name := by
  induction h with
  | start h => intro a t ht ho; rw [h a t ht] at ho; simp at ho
  | others _ h ih => intro a t ht ho; exact ih a t (h a t ht ho) ho
  | install hash draws fails u D _ ih =>
    intro a t ht ho
    rcases transact_mem ht with ht | ht
    · exact ih a t ht ho
    · obtain ⟨l, h1, h2, _⟩ := run_creates (b := b) (fails := fails) (hash := hash) (draws := draws) (ts := buildTriggerset b D) (n := 0) (m := 0)
      rw [h2] at ht
      rcases List.mem_append.1 ht with ht | ht
      · exact ih u t ht ho
      · exact expected_own built_names t (h1.subset ht)
  | drop fails u _ ih =>
    intro a t ht ho
    rcases transact_mem ht with ht | ht
    · exact ih a t ht ho
    · obtain ⟨q, h1, _⟩ := drop_catalog (b := b) (fails := fails)
      rw [h1] at ht
      exact ih u t (List.mem_filter.1 ht).1 ho

/-! ## The names of triggers do not matter, except for sqlite's guard against recursion -/

/-- The trigger without its name. -/
def DbTrigger.anonymous (t : DbTrigger) : DbTrigger := { t with name := "" }

def Item.forget : Item → Item
  | .write fr t ops => .write ⟨[], fr.tables⟩ t ops
  | .act fr ch a => .act ⟨[], fr.tables⟩ ch a

theorem writes_forget (b : Backend) (fr fr' : Frame) (h : fr.tables = fr'.tables) (t : TableName) (ops : List RowOp) :
    (writes b fr t ops).map Item.forget = (writes b fr' t ops).map Item.forget := by
  cases b <;> simp [writes, Item.forget, h]

theorem enters_anonymous {E E' : Engine} (hb : E.backend ≠ .sqlite) (hb' : E'.backend = E.backend) {fr fr' : Frame} {ch : Change}
    {t t' : DbTrigger} (h : t.anonymous = t'.anonymous) : E.enters fr ch t = E'.enters fr' ch t' := by
  cases t; cases t'
  simp only [DbTrigger.anonymous, DbTrigger.mk.injEq, true_and] at h
  obtain ⟨rfl, rfl, rfl, rfl, rfl, rfl⟩ := h
  have : ∀ x : Bool, (decide (E.backend = .sqlite) && x) = false := fun x => by simp [hb]
  simp only [Engine.enters, hb', this]
  rfl

theorem fired_forget {E E' : Engine} (hb : E.backend ≠ .sqlite) (hb' : E'.backend = E.backend) {fr fr' : Frame} (hf : fr.tables = fr'.tables)
    {ch : Change} : ∀ {l l' : List DbTrigger}, l.map DbTrigger.anonymous = l'.map DbTrigger.anonymous →
      ((l.filter (E.enters fr ch)).flatMap fun tr => tr.actions.map (Item.act ⟨tr.name :: fr.trigs, ch.table :: fr.tables⟩ ch)).map Item.forget =
      ((l'.filter (E'.enters fr' ch)).flatMap fun tr => tr.actions.map (Item.act ⟨tr.name :: fr'.trigs, ch.table :: fr'.tables⟩ ch)).map Item.forget
  | [], [], _ => rfl
  | [], _ :: _, h => by simp at h
  | _ :: _, [], h => by simp at h
  | t :: l, t' :: l', h => by
    simp only [List.map_cons, List.cons.injEq] at h
    have ih := fired_forget hb hb' hf (ch := ch) h.2
    have ha : t.anonymous.actions = t'.anonymous.actions := congrArg DbTrigger.actions h.1
    simp only [DbTrigger.anonymous] at ha
    rw [List.filter_cons, List.filter_cons, enters_anonymous hb hb' (fr := fr) (fr' := fr') h.1]
    split
    · simp only [List.flatMap_cons, List.map_append, ih, ha, List.map_map]
      congr 1
      refine List.map_congr_left fun a _ => ?_
      simp [Item.forget, hf]
    · exact ih

theorem step_forget {E E' : Engine} (hb : E.backend ≠ .sqlite) (hb' : E'.backend = E.backend) (hr : E'.rand = E.rand)
    (ht : E.triggers.map DbTrigger.anonymous = E'.triggers.map DbTrigger.anonymous) {it it' : Item} (hi : it.forget = it'.forget) (db : Db) :
    (∃ e, E.step it db = .error e ∧ E'.step it' db = .error e) ∨
    ∃ l l' db', E.step it db = .ok (l, db') ∧ E'.step it' db = .ok (l', db') ∧ l.map Item.forget = l'.map Item.forget := by
  have happ : ∀ t ops db, applyOps E' t ops db = applyOps E t ops db := by
    intro t ops
    induction ops with
    | nil => intro db; rfl
    | cons op ops ih =>
      intro db
      have : applyOp E' t op db = applyOp E t op db := by cases op <;> simp only [applyOp, hr]
      simp only [applyOps, this, ih]
  cases it with
  | write fr t ops =>
    cases it' with
    | act => simp [Item.forget] at hi
    | write fr' t' ops' =>
      simp only [Item.forget, Item.write.injEq, Frame.mk.injEq, true_and] at hi
      obtain ⟨hf, rfl, rfl⟩ := hi
      refine .inr ⟨_, (applyOps E t ops db).2.flatMap (E'.fired fr'), _, rfl, by simp only [Engine.step, happ], ?_⟩
      simp only [List.map_flatMap]
      congr 1
      funext ch
      exact fired_forget hb hb' hf ht
  | act fr ch a =>
    cases it' with
    | write => simp [Item.forget] at hi
    | act fr' ch' a' =>
      simp only [Item.forget, Item.act.injEq, Frame.mk.injEq, true_and] at hi
      obtain ⟨hf, rfl, rfl⟩ := hi
      cases a with
      | markValues ct s c q => exact .inr ⟨_, _, _, rfl, rfl, rfl⟩
      | markSelect ct sel t k s c q => exact .inr ⟨_, _, _, rfl, rfl, rfl⟩
      | update u =>
        simp only [Engine.step, hb', ← hf]
        split
        · exact .inl ⟨_, rfl, rfl⟩
        · exact .inr ⟨_, _, _, rfl, rfl, writes_forget _ _ _ hf _ _⟩

theorem drain_forget {E E' : Engine} (hb : E.backend ≠ .sqlite) (hb' : E'.backend = E.backend) (hr : E'.rand = E.rand)
    (ht : E.triggers.map DbTrigger.anonymous = E'.triggers.map DbTrigger.anonymous) : ∀ {n : Nat} {W W' : List Item} {db : Db},
    W.map Item.forget = W'.map Item.forget → E.drain n W db = E'.drain n W' db
  | n, [], [], db, _ => by cases n <;> rfl
  | _, [], _ :: _, _, h => by simp at h
  | _, _ :: _, [], _, h => by simp at h
  | 0, _ :: _, _ :: _, _, _ => rfl
  | n + 1, it :: W, it' :: W', db, h => by
    simp only [List.map_cons, List.cons.injEq] at h
    rcases step_forget hb hb' hr ht h.1 db with ⟨e, h1, h2⟩ | ⟨l, l', db', h1, h2, h3⟩
    · simp only [Engine.drain, h1, h2]
    · simp only [Engine.drain, h1, h2]
      exact drain_forget hb hb' hr ht (by rw [List.map_append, List.map_append, h3, h.2])

/-- Two databases whose triggers differ in their names only behave alike. -/
theorem exec_forget {E E' : Engine} (hb : E.backend ≠ .sqlite) (hb' : E'.backend = E.backend) (hr : E'.rand = E.rand)
    (ht : E.triggers.map DbTrigger.anonymous = E'.triggers.map DbTrigger.anonymous) (fuel : Nat) (s : Stmt) (db : Db) :
    E.exec fuel s db = E'.exec fuel s db :=
  drain_forget hb hb' hr ht (by rw [Engine.start, Engine.start, hb'])

theorem expected_anonymous {b : Backend} {hash : String → String} {draws : Nat → String} : ∀ {ts : TriggerSet} {m : Nat},
    (Catalog.denormTriggers (expectedTriggers b hash draws m ts)).map DbTrigger.anonymous =
      (ts.map fun p => p.2.compile p.1).map DbTrigger.anonymous
  | [], _ => rfl
  | p :: ts, m => by
    have ih := expected_anonymous (b := b) (hash := hash) (draws := draws) (ts := ts) (m := m + 1)
    simp only [Catalog.denormTriggers, expectedTriggers, createdTrigger, List.filterMap_cons, List.map_cons] at ih ⊢
    rw [ih]
    rfl

theorem expected_sqlite {hash : String → String} {draws : Nat → String} : ∀ {ts : TriggerSet} {m : Nat},
    Catalog.denormTriggers (expectedTriggers .sqlite hash draws m ts) = ts.map fun p => p.2.compile p.1
  | [], _ => rfl
  | p :: ts, m => by
    have ih := expected_sqlite (hash := hash) (draws := draws) (ts := ts) (m := m + 1)
    simp only [Catalog.denormTriggers, expectedTriggers, createdTrigger, List.filterMap_cons, List.map_cons] at ih ⊢
    rw [ih]
    rfl

theorem denormTriggers_none {c : Catalog} (h : ∀ t ∈ c, t.own = false) : c.denormTriggers = [] := by
  rw [Catalog.denormTriggers, List.filterMap_eq_nil_iff]
  intro t ht
  have := h t ht
  unfold CatTrigger.own at this
  cases hb : t.body with
  | denorm d => rw [hb] at this; simp at this
  | other s => rfl

end Denorm
