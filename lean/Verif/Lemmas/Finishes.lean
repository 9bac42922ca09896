import Verif.Spec.Finishes
import Verif.Lemmas.Confined
import Verif.Lemmas.Declared
import Verif.Lemmas.Names
import Verif.Lemmas.Settle
/-!
# Work that comes to an end
-/
namespace Denorm

section
variable {E : Engine}

theorem drain_mono : ∀ {n : Nat} {W : List Item} {db db' : Db} (k : Nat), E.drain n W db = .ok db' → E.drain (n + k) W db = .ok db'
  | n, [], db, db', k, h => by
    have : ∀ m, E.drain m [] db = .ok db := fun m => by cases m <;> rfl
    rw [this] at h ⊢
    exact h
  | 0, it :: W, db, db', k, h => by simp [Engine.drain] at h
  | n + 1, it :: W, db, db', k, h => by
    rw [show n + 1 + k = (n + k) + 1 by omega]
    simp only [Engine.drain] at h ⊢
    split at h
    · next new db1 hs =>
      exact drain_mono k h
    · simp at h

theorem drain_error : ∀ {n : Nat} {W : List Item} {db : Db} {e : DbErr}, E.drain n W db = .error e → e ≠ .depth → ∀ k, E.drain (n + k) W db = .error e
  | n, [], db, e, h, _, k => by
    have : ∀ m, E.drain m [] db = .ok db := fun m => by cases m <;> rfl
    rw [this] at h
    simp at h
  | 0, it :: W, db, e, h, he, k => by
    simp only [Engine.drain, Except.error.injEq] at h
    exact absurd h.symm he
  | n + 1, it :: W, db, e, h, he, k => by
    rw [show n + 1 + k = (n + k) + 1 by omega]
    simp only [Engine.drain] at h ⊢
    split at h
    · next new db1 hs =>
      exact drain_error h he k
    · exact h

theorem drain_append : ∀ {n : Nat} {W W' : List Item} {db db1 db2 : Db} {m : Nat}, E.drain n W db = .ok db1 → E.drain m W' db1 = .ok db2 →
    E.drain (n + m) (W ++ W') db = .ok db2
  | n, [], W', db, db1, db2, m, h1, h2 => by
    have : ∀ m, E.drain m [] db = .ok db := fun m => by cases m <;> rfl
    rw [this] at h1
    simp only [Except.ok.injEq] at h1
    subst h1
    rw [Nat.add_comm]
    exact drain_mono n h2
  | 0, it :: W, W', db, db1, db2, m, h1, h2 => by simp [Engine.drain] at h1
  | n + 1, it :: W, W', db, db1, db2, m, h1, h2 => by
    rw [show n + 1 + m = (n + m) + 1 by omega]
    simp only [Engine.drain, List.cons_append] at h1 ⊢
    split at h1
    · next new db3 hs =>
      rw [← List.append_assoc]
      exact drain_append h1 h2
    · simp at h1

/-- Items have levels, and carrying one out succeeds and leaves only items of lower levels to do. -/
def Descends (E : Engine) (G : Nat → Item → Prop) : Prop :=
  ∀ k it, G k it → ∀ db, ∃ new db', E.step it db = .ok (new, db') ∧ ∀ i ∈ new, ∃ k', k' < k ∧ G k' i

theorem descends_drain {G : Nat → Item → Prop} (hG : Descends E G) : ∀ (k : Nat) (W : List Item), (∀ it ∈ W, ∃ k', k' < k ∧ G k' it) →
    ∀ db, ∃ n db', E.drain n W db = .ok db' := by
  intro k
  induction k with
  | zero =>
    intro W h db
    cases W with
    | nil => exact ⟨0, db, rfl⟩
    | cons it W =>
      obtain ⟨_, h1, _⟩ := h it (List.mem_cons_self ..)
      exact absurd h1 (Nat.not_lt_zero _)
  | succ k ih =>
    intro W
    induction W with
    | nil => intro _ db; exact ⟨0, db, rfl⟩
    | cons it W ihW =>
      intro h db
      obtain ⟨k1, hk1, hg⟩ := h it (List.mem_cons_self ..)
      obtain ⟨new, db1, hs, hnew⟩ := hG k1 it hg db
      obtain ⟨n1, db2, h1⟩ := ih new (fun i hi => by
        obtain ⟨k2, hk2, hg2⟩ := hnew i hi
        exact ⟨k2, by omega, hg2⟩) db1
      obtain ⟨n2, db3, h2⟩ := ihW (fun i hi => h i (List.mem_cons_of_mem _ hi)) db2
      refine ⟨n1 + n2 + 1, db3, ?_⟩
      simp only [Engine.drain, hs]
      exact drain_append h1 h2

theorem descends_finishes {G : Nat → Item → Prop} (hG : Descends E G) {s : Stmt} {db : Db} (h : ∀ it ∈ E.start s db, ∃ k, G k it) : E.Finishes s db := by
  have hb : ∃ B, ∀ it ∈ E.start s db, ∃ k', k' < B ∧ G k' it := by
    generalize E.start s db = W at h
    induction W with
    | nil => exact ⟨0, by simp⟩
    | cons it W ih =>
      obtain ⟨B, hB⟩ := ih fun i hi => h i (List.mem_cons_of_mem _ hi)
      obtain ⟨k, hk⟩ := h it (List.mem_cons_self ..)
      refine ⟨B + k + 1, fun i hi => ?_⟩
      rcases List.mem_cons.1 hi with rfl | hi
      · exact ⟨k, by omega, hk⟩
      · obtain ⟨k', h1, h2⟩ := hB i hi
        exact ⟨k', by omega, h2⟩
  obtain ⟨B, hB⟩ := hb
  obtain ⟨n, db', h1⟩ := descends_drain hG B _ hB db
  refine ⟨db', n, fun fuel hf => ?_⟩
  obtain ⟨k, rfl⟩ := Nat.le.dest hf
  exact drain_mono k h1

/-- To show that a statement fails whatever the limit: it fails with an error of its own. -/
theorem fails_of_error {s : Stmt} {db : Db} {n : Nat} {e : DbErr} (h : E.exec n s db = .error e) (he : e ≠ .depth) : E.Fails s db := by
  intro fuel
  cases hx : E.exec fuel s db with
  | error e' => exact ⟨e', rfl⟩
  | ok db' =>
    have h1 := drain_error (E := E) h he fuel
    have h2 := drain_mono (E := E) n hx
    rw [Nat.add_comm] at h2
    rw [h2] at h1
    simp at h1

/-- To show an error by evaluation. -/
theorem error_of {x : Except DbErr Db} {e : DbErr} (h : (match x with
      | .ok _ => false
      | .error e' => decide (e' = e)) = true) : x = .error e := by
  cases x with
  | ok _ => simp at h
  | error e' => simpa using h

/-- The changes reported for a write are on its table. -/
theorem applyOps_table {t : TableName} : ∀ {ops : List RowOp} {db : Db} {ch : Change}, ch ∈ (applyOps E t ops db).2 → ch.table = t
  | [], db, ch, h => by simp [applyOps] at h
  | op :: ops, db, ch, h => by
    simp only [applyOps, List.mem_append] at h
    rcases h with h | h
    · cases op with
      | ins r =>
        simp only [applyOp, List.mem_singleton] at h
        rw [h]
      | upd i σ =>
        simp only [applyOp] at h
        split at h
        · simp at h
        · simp only [List.mem_singleton] at h
          rw [h]
      | del w =>
        simp only [applyOp] at h
        split at h
        · simp at h
        · simp only [List.mem_singleton] at h
          rw [h]
    · exact applyOps_table h

theorem applyOps_upd {t : TableName} {col : Col} : ∀ {ops : List RowOp} {db : Db} {ch : Change},
    (∀ op ∈ ops, ∃ i σ, op = .upd i σ ∧ ∀ x r c, c ≠ col → σ x r c = r c) → ch ∈ (applyOps E t ops db).2 →
    ch.event = .update ∧ ∀ c, c ≠ col → ch.new c = ch.old c
  | [], db, ch, _, h => by simp [applyOps] at h
  | op :: ops, db, ch, ho, h => by
    simp only [applyOps, List.mem_append] at h
    rcases h with h | h
    · obtain ⟨i, σ, rfl, hσ⟩ := ho op (List.mem_cons_self ..)
      simp only [applyOp] at h
      split at h
      · simp at h
      · simp only [List.mem_singleton] at h
        subst h
        exact ⟨rfl, fun c hc => hσ _ _ c hc⟩
    · exact applyOps_upd (fun op hop => ho op (List.mem_cons_of_mem _ hop)) h

end

/-! ## sqlite: a trigger is not entered twice -/

section
variable {E : Engine}

/-- How many triggers are not running. -/
def idle (E : Engine) (fr : Frame) : Nat := (E.triggers.filter fun tr => !decide (tr.name ∈ fr.trigs)).length

theorem filter_length_lt {α : Type _} {p q : α → Bool} (h : ∀ a, p a = true → q a = true) : ∀ {l : List α} {a : α}, a ∈ l → q a = true → p a = false →
    (l.filter p).length < (l.filter q).length := by
  intro l a ha hq hp
  rw [← List.countP_eq_length_filter, ← List.countP_eq_length_filter]
  exact countP_lt h ha hp hq

def SqliteLevel (E : Engine) : Nat → Item → Prop
  | k, .write fr _ _ => k = 2 * idle E fr + 1
  | k, .act fr _ _ => k = 2 * idle E fr + 2

theorem sqlite_descends (hb : E.backend = .sqlite) : Descends E (SqliteLevel E) := by
  intro k it hg db
  cases it with
  | write fr t ops =>
    refine ⟨_, _, rfl, fun i hi => ?_⟩
    obtain ⟨ch, hch, hi⟩ := List.mem_flatMap.1 hi
    obtain ⟨tr, htr, hen, a, ha, rfl⟩ := mem_fired.1 hi
    refine ⟨_, ?_, rfl⟩
    simp only [SqliteLevel] at hg
    simp only [Engine.enters, hb, decide_true, Bool.true_and, Bool.and_eq_true, Bool.not_eq_true', decide_eq_false_iff_not] at hen
    have : idle E ⟨tr.name :: fr.trigs, ch.table :: fr.tables⟩ < idle E fr := by
      refine filter_length_lt (fun x hx => ?_) htr (by simpa using hen.2) (by simp)
      simp only [Bool.not_eq_true', decide_eq_false_iff_not, List.mem_cons, not_or] at hx ⊢
      exact hx.2
    omega
  | act fr ch a =>
    cases a with
    | markValues => exact ⟨[], _, rfl, by simp⟩
    | markSelect => exact ⟨[], _, rfl, by simp⟩
    | update u =>
      refine ⟨writes E.backend fr u.table (u.ops ch db), db, by simp [Engine.step, hb], fun i hi => ?_⟩
      obtain ⟨l, rfl, _⟩ := mem_writes hi
      simp only [SqliteLevel] at hg
      exact ⟨_, by omega, rfl⟩

theorem sqlite_finishes (hb : E.backend = .sqlite) (s : Stmt) (db : Db) : E.Finishes s db := by
  refine descends_finishes (sqlite_descends hb) fun it hit => ?_
  obtain ⟨l, rfl, _⟩ := mem_writes hit
  exact ⟨_, rfl⟩

end

/-! ## Tables that do not feed themselves -/

section
variable {E : Engine} {D : List Denorm}

def TableLevel (h : TableName → Nat) : Nat → Item → Prop
  | k, .write fr t _ => k = 2 * h t + 1 ∧ ∀ x ∈ fr.tables, h t < h x
  | k, .act fr _ (.update u) => k = 2 * h u.table + 2 ∧ ∀ x ∈ fr.tables, h u.table < h x
  | k, .act _ _ _ => k = 0

theorem table_descends {h : TableName → Nat} (hh : ∀ tr ∈ E.triggers, ∀ u, Action.update u ∈ tr.actions → h u.table < h tr.table) :
    Descends E (TableLevel h) := by
  intro k it hg db
  cases it with
  | write fr t ops =>
    obtain ⟨rfl, hx⟩ := hg
    refine ⟨_, _, rfl, fun i hi => ?_⟩
    obtain ⟨ch, hch, hi⟩ := List.mem_flatMap.1 hi
    have htab := applyOps_table hch
    obtain ⟨tr, htr, hen, a, ha, rfl⟩ := mem_fired.1 hi
    simp only [Engine.enters, Bool.and_eq_true, decide_eq_true_eq] at hen
    cases a with
    | markValues => exact ⟨0, by omega, rfl⟩
    | markSelect => exact ⟨0, by omega, rfl⟩
    | update u =>
      have h1 := hh tr htr u ha
      rw [hen.1.1.1, htab] at h1
      refine ⟨_, ?_, rfl, fun x hxm => ?_⟩
      · omega
      · rcases List.mem_cons.1 hxm with rfl | hxm
        · rw [htab]; exact h1
        · have := hx x hxm
          omega
  | act fr ch a =>
    cases a with
    | markValues => exact ⟨[], _, rfl, by simp⟩
    | markSelect => exact ⟨[], _, rfl, by simp⟩
    | update u =>
      obtain ⟨rfl, hx⟩ := hg
      have hn : ¬ (E.backend = .mysql ∧ u.table ∈ fr.tables) := fun hc => Nat.lt_irrefl _ (hx _ hc.2)
      refine ⟨writes E.backend fr u.table (u.ops ch db), db, by simp [Engine.step, hn], fun i hi => ?_⟩
      obtain ⟨l, rfl, _⟩ := mem_writes hi
      exact ⟨_, by omega, rfl, hx⟩

theorem table_finishes {h : TableName → Nat} (hh : ∀ tr ∈ E.triggers, ∀ u, Action.update u ∈ tr.actions → h u.table < h tr.table) (s : Stmt) (db : Db) :
    E.Finishes s db := by
  refine descends_finishes (table_descends hh) fun it hit => ?_
  obtain ⟨l, rfl, _⟩ := mem_writes hit
  exact ⟨_, rfl, by simp [Frame.top]⟩

theorem cacheKey_source {d : Dep} {f : Col} {g : PyTrigger} (hg : g ∈ d.cacheKeyTriggers f) (m : Model) (ds : List Dep) (hd : d ∈ ds) :
    g.table ∈ (Denorm.cacheKey m f ds).sources := by
  refine List.mem_flatMap.2 ⟨d, hd, ?_⟩
  rcases d with ⟨this, other, rel, skip⟩
  rcases rel with f | f | (f | gr) | (f | gr) <;>
    simp only [Dep.cacheKeyTriggers, cacheKeyM2MTriggers, List.mem_cons, List.not_mem_nil, or_false,
      List.cons_append, List.nil_append, List.append_nil] at hg <;>
    rcases hg with rfl | rfl | rfl | rfl <;> simp [mkTrigger, M2MLike.subject]

theorem generated_source {g : PyTrigger} (hg : g ∈ generated D) (hthis : ∀ dn ∈ D, ∀ d ∈ dn.deps, d.this = dn.model) {u : UpdAction}
    (hu : Action.update u ∈ g.actions) : Feeds D g.table u.table := by
  obtain ⟨dn, hdn, hg⟩ := List.mem_flatMap.1 hg
  cases dn with
  | callback bu m f sk ds =>
    simp only [Denorm.triggers, List.mem_append] at hg
    rcases hg with hg | hg
    · split at hg
      · simp at hg
      · simp only [selfTriggers, List.mem_cons, List.not_mem_nil, or_false] at hg
        rcases hg with rfl | rfl <;> simp [mkTrigger_actions] at hu
    · obtain ⟨d, _, hg⟩ := List.mem_flatMap.1 hg
      exact absurd hu (callback_no_update hg)
  | cacheKey m f ds =>
    obtain ⟨d, hd, hg⟩ := List.mem_flatMap.1 hg
    obtain ⟨h1, h2, _⟩ := cacheKey_update hg hu
    rw [h1, hthis _ hdn d hd]
    exact .direct hdn (cacheKey_source hg m ds hd)
  | aggregate a =>
    have h1 : u.table = a.model.table := by
      rcases aggregate_update hg hu with h | h <;> simp only [AggDenorm.increment, AggDenorm.decrement, Action.update.injEq] at h <;> subst h <;> rfl
    rw [h1]
    refine .direct (dn := .aggregate a) hdn ?_
    simp only [Denorm.triggers, AggDenorm.triggers, List.mem_cons, List.not_mem_nil, or_false] at hg
    rcases hg with rfl | rfl | rfl <;> simp [mkTrigger, Denorm.sources]

theorem name_table {b : Backend} (hc : b ≠ .mysql → TableNamesClear D) {g g' : PyTrigger} (hg : g ∈ generated D) (hg' : g' ∈ generated D)
    (h : g.name b = g'.name b) : g.table = g'.table := by
  have hcc : ∀ {n : Nat}, b ≠ .mysql → baseName g.event g.table ++ "_" ++ toString n = baseName g'.event g'.table → False := by
    intro n hb h
    rw [baseName_suffix] at h
    exact hc hb g' hg' g hg n (baseName_inj h).2.symm
  have hcc' : ∀ {n : Nat}, b ≠ .mysql → baseName g.event g.table = baseName g'.event g'.table ++ "_" ++ toString n → False := by
    intro n hb h
    rw [baseName_suffix] at h
    exact hc hb g hg g' hg' n (baseName_inj h).2
  have hss : ∀ {n n' : Nat}, baseName g.event g.table ++ "_" ++ toString n = baseName g'.event g'.table ++ "_" ++ toString n' → g.table = g'.table :=
    fun h => (baseName_inj (suffix_inj h).1).2
  simp only [PyTrigger.name] at h
  cases b with
  | mysql => exact (baseName_inj h).2
  | sqlite =>
    cases h1 : g.contentTypeField <;> cases h2 : g'.contentTypeField <;> simp only [h1, h2] at h
    · exact (baseName_inj h).2
    · exact (hcc' (by simp) h).elim
    · exact (hcc (by simp) h).elim
    · exact hss h
  | postgresql =>
    cases h1 : g.contentTypeField <;> cases h2 : g'.contentTypeField <;> simp only [h1, h2] at h
    · exact (baseName_inj h).2
    · exact (hcc' (by simp) h).elim
    · exact (hcc (by simp) h).elim
    · exact hss h

theorem trigger_feeds (hE : Installed E D) (hthis : ∀ dn ∈ D, ∀ d ∈ dn.deps, d.this = dn.model) (hc : E.backend ≠ .mysql → TableNamesClear D)
    {tr : DbTrigger} (htr : tr ∈ E.triggers) {u : UpdAction} (hu : Action.update u ∈ tr.actions) : Feeds D tr.table u.table := by
  rw [hE] at htr
  obtain ⟨g, hg, h1, h2⟩ := installed_origin htr hu
  obtain ⟨g', hg', h3, h4, _⟩ := installed_head htr
  rw [h4, ← name_table hc hg hg' (h1.trans h3.symm)]
  exact generated_source hg hthis h2

open Classical in
/-- How many declared tables a table feeds. -/
noncomputable def fedBy (D : List Denorm) (t : TableName) : Nat := (D.map fun dn => dn.model.table).countP fun t' => decide (Feeds D t t')

theorem feeds_mem {t t' : TableName} (h : Feeds D t t') : t' ∈ D.map fun dn => dn.model.table := by
  induction h with
  | direct h1 _ => exact List.mem_map.2 ⟨_, h1, rfl⟩
  | trans _ _ _ ih => exact ih

theorem fedBy_lt (ha : TablesAcyclic D) {t t' : TableName} (h : Feeds D t t') : fedBy D t' < fedBy D t := by
  refine countP_lt (fun x hx => ?_) (feeds_mem h) ?_ ?_
  · simp only [decide_eq_true_eq] at hx ⊢
    exact .trans h hx
  · simpa using ha t'
  · simpa using h

end

/-! ## Columns that do not lead back to themselves -/

section
variable {E : Engine}

/-- Writes of one column. -/
def OneCol (col : Col) (ops : List RowOp) : Prop := ∀ op ∈ ops, ∃ i σ, op = .upd i σ ∧ ∀ x r c, c ≠ col → σ x r c = r c

/-- An item of a statement: the statement's own write, or an UPDATE of a trigger, from one of the tables in its frame. -/
def ColLevel (E : Engine) (rank : TableName × Col → Nat) (top : Nat) : Nat → Item → Prop
  | k, .write fr t ops =>
    (∃ c, k = 2 * rank (t, c) + 1 ∧ (∃ tr ∈ E.triggers, ∃ u, Action.update u ∈ tr.actions ∧ u.table = t ∧ u.col = c) ∧
      (∀ x ∈ fr.tables, Stirs E x (t, c)) ∧ OneCol c ops) ∨ (k = 2 * top + 1 ∧ fr.tables = [])
  | k, .act fr _ (.update u) => k = 2 * rank (u.table, u.col) + 2 ∧ (∃ tr ∈ E.triggers, Action.update u ∈ tr.actions) ∧
      ∀ x ∈ fr.tables, Stirs E x (u.table, u.col)
  | k, .act _ _ _ => k = 0

theorem col_descends (hb : E.backend = .mysql → ∀ t c, ¬ Stirs E t (t, c)) {rank : TableName × Col → Nat} {top : Nat}
    (htop : ∀ tr ∈ E.triggers, ∀ u, Action.update u ∈ tr.actions → rank (u.table, u.col) < top)
    (hr : ∀ p q, Leads E p q → rank q < rank p) : Descends E (ColLevel E rank top) := by
  rintro k it hg db
  cases it with
  | write fr t ops =>
    refine ⟨_, _, rfl, fun i hi => ?_⟩
    obtain ⟨ch, hch, hi⟩ := List.mem_flatMap.1 hi
    have htab := applyOps_table hch
    obtain ⟨tr, htr, hen, a, ha, rfl⟩ := mem_fired.1 hi
    simp only [Engine.enters, Bool.and_eq_true, decide_eq_true_eq] at hen
    cases a with
    | markValues => exact ⟨0, by rcases hg with ⟨_, h, _⟩ | ⟨h, _⟩ <;> omega, rfl⟩
    | markSelect => exact ⟨0, by rcases hg with ⟨_, h, _⟩ | ⟨h, _⟩ <;> omega, rfl⟩
    | update u =>
      refine ⟨2 * rank (u.table, u.col) + 2, ?_⟩
      rcases hg with ⟨c, rfl, hu, hx, hops⟩ | ⟨rfl, hx⟩
      · obtain ⟨hev, hold⟩ := applyOps_upd hops hch
        have hl : Leads E (t, c) (u.table, u.col) := by
          have h1 : tr.table = t := hen.1.1.1.trans htab
          rw [← h1]
          refine .direct htr (hen.1.1.2.trans hev) ?_ ha
          have hf := fires_update (b := E.backend) (tr := tr) (t := ch.table) (o := ch.old) (n := ch.new) (hen.1.1.2.trans hev) (by
            have h1 := hen.1.2
            rcases ch with ⟨ct, ce, co, cn⟩
            simp only at hev
            subst hev
            exact h1)
          refine hf.imp id ?_
          rintro ⟨c', hcm, hne⟩
          by_cases hcc : c' = c
          · exact hcc ▸ hcm
          · exact absurd (hold c' hcc).symm hne
        have := hr _ _ hl
        refine ⟨by omega, rfl, ⟨tr, htr, ha⟩, fun x hxm => ?_⟩
        rcases List.mem_cons.1 hxm with rfl | hxm
        · exact .direct htr hen.1.1.1 ha
        · exact .next (hx x hxm) hl
      · have := htop tr htr u ha
        refine ⟨by omega, rfl, ⟨tr, htr, ha⟩, fun x hxm => ?_⟩
        simp only [hx, List.mem_singleton] at hxm
        subst hxm
        exact .direct htr hen.1.1.1 ha
  | act fr ch a =>
    cases a with
    | markValues => exact ⟨[], _, rfl, by simp⟩
    | markSelect => exact ⟨[], _, rfl, by simp⟩
    | update u =>
      obtain ⟨rfl, ⟨tr, htr, ha⟩, hx⟩ := hg
      have hn : ¬ (E.backend = .mysql ∧ u.table ∈ fr.tables) := fun hc => hb hc.1 _ _ (hx _ hc.2)
      refine ⟨writes E.backend fr u.table (u.ops ch db), db, by simp [Engine.step, hn], fun i hi => ?_⟩
      obtain ⟨l, rfl, hl⟩ := mem_writes hi
      refine ⟨2 * rank (u.table, u.col) + 1, by omega, .inl ⟨u.col, rfl, ⟨tr, htr, u, ha, rfl, rfl⟩, hx, fun op ho => ?_⟩⟩
      obtain ⟨i, _, rfl⟩ := List.mem_map.1 (hl op ho)
      exact ⟨i, _, rfl, fun x r c hc => by simp [UpdAction.set, Row.set, hc]⟩

/-- The columns that triggers write. -/
def Engine.targets (E : Engine) : List (TableName × Col) := E.triggers.flatMap fun tr => tr.actions.filterMap fun a => match a with
  | .update u => some (u.table, u.col)
  | _ => none

theorem mem_targets {tr : DbTrigger} (htr : tr ∈ E.triggers) {u : UpdAction} (hu : Action.update u ∈ tr.actions) : (u.table, u.col) ∈ E.targets :=
  List.mem_flatMap.2 ⟨tr, htr, List.mem_filterMap.2 ⟨_, hu, rfl⟩⟩

theorem leads_mem {p q : TableName × Col} (h : Leads E p q) : q ∈ E.targets := by
  induction h with
  | direct h1 _ _ h2 => exact mem_targets h1 h2
  | trans _ _ _ ih => exact ih

open Classical in
/-- How many columns a column leads to. -/
noncomputable def leadsTo (E : Engine) (p : TableName × Col) : Nat := E.targets.countP fun q => decide (Leads E p q)

theorem leadsTo_lt (ha : ∀ p, ¬ Leads E p p) {p q : TableName × Col} (h : Leads E p q) : leadsTo E q < leadsTo E p := by
  refine countP_lt (fun x hx => ?_) (leads_mem h) ?_ ?_
  · simp only [decide_eq_true_eq] at hx ⊢
    exact .trans h hx
  · simpa using ha q
  · simpa using h

theorem col_finishes (hb : E.backend = .mysql → ∀ t c, ¬ Stirs E t (t, c)) (ha : ∀ p, ¬ Leads E p p) (s : Stmt) (db : Db) : E.Finishes s db := by
  refine descends_finishes (col_descends hb (rank := leadsTo E) (top := E.targets.length + 1) (fun tr htr u hu => ?_) fun p q h => leadsTo_lt ha h) fun it hit => ?_
  · exact Nat.lt_succ_of_le (List.countP_le_length ..)
  · obtain ⟨l, rfl, _⟩ := mem_writes hit
    exact ⟨_, .inr ⟨rfl, rfl⟩⟩

/-- A column that leads to itself makes its table stir itself. -/
theorem stirs_of_leads {p q : TableName × Col} (h : Leads E p q) : Stirs E p.1 q := by
  induction h with
  | direct h1 _ _ h2 => exact .direct h1 rfl h2
  | trans _ h2 ih _ => exact .next ih h2

end

/-! ## Endless work -/

/-- To show that a statement runs into every limit: a set of situations that its work never leaves. -/
theorem endless {E : Engine} {P : List Item → Db → Prop} (h : ∀ W db, P W db → ∃ it W' new db', W = it :: W' ∧ E.step it db = .ok (new, db') ∧ P (new ++ W') db') :
    ∀ (n : Nat) (W : List Item) (db : Db), P W db → E.drain n W db = .error .depth := by
  intro n
  induction n with
  | zero =>
    intro W db hP
    obtain ⟨it, W', _, _, rfl, _⟩ := h W db hP
    rfl
  | succ n ih =>
    intro W db hP
    obtain ⟨it, W', new, db', rfl, hs, hP'⟩ := h W db hP
    simp only [Engine.drain, hs]
    exact ih _ _ hP'

end Denorm
