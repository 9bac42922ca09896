import Verif.Spec.Store
import Verif.Lemmas.Range
/-!
# When the column types make no difference
-/
namespace Denorm

/-! ## Writing rows that the columns take as they are -/

theorem applyOpStored_eq {E : Engine} {κ : Store} {t : TableName} {op : RowOp} {db : Db}
    (h : ∀ ch ∈ (applyOp E t op db).2, ch.event ≠ .delete → κ t ch.new = some ch.new) : applyOpStored E κ t op db = some (applyOp E t op db) := by
  cases op with
  | ins r =>
    have := h ⟨t, .insert, r, r⟩ (by simp [applyOp]) (by simp)
    simp only at this
    simp [applyOpStored, applyOp, this]
  | upd i σ =>
    simp only [applyOpStored, applyOp] at h ⊢
    cases ho : (db.rows t)[i]? with
    | none => rfl
    | some old =>
      rw [ho] at h
      have := h ⟨t, .update, old, σ (E.rand db.draws) old⟩ (by simp) (by simp)
      simp only at this
      simp [this]
  | del w =>
    simp only [applyOpStored, applyOp]
    cases (db.rows t).find? w <;> rfl

theorem applyOpsStored_eq {E : Engine} {κ : Store} {t : TableName} : ∀ {ops : List RowOp} {db : Db},
    (∀ ch ∈ (applyOps E t ops db).2, ch.event ≠ .delete → κ t ch.new = some ch.new) →
    applyOpsStored E κ t ops db = some (applyOps E t ops db)
  | [], _, _ => rfl
  | op :: ops, db, h => by
    simp only [applyOps, List.mem_append] at h
    simp only [applyOpsStored, applyOps]
    rw [applyOpStored_eq fun ch hc => h ch (.inl hc)]
    simp only []
    rw [applyOpsStored_eq fun ch hc => h ch (.inr hc)]
    rfl

/-- The rows a statement or an action writes: new ones, or different ones rewritten, or removals. -/
def Tidy (ops : List RowOp) : Prop :=
  (∀ op ∈ ops, ∃ r, op = .ins r) ∨ (∃ (l : List Nat) (σ : Int → Row → Row), l.Nodup ∧ ops = l.map fun i => .upd i σ) ∨ ∀ op ∈ ops, ∃ w, op = .del w

def Item.tidy : Item → Prop
  | .write _ _ ops => Tidy ops
  | .act .. => True

theorem applyOps_ins {E : Engine} {t : TableName} : ∀ {ops : List RowOp} {db : Db}, (∀ op ∈ ops, ∃ r, op = .ins r) →
    (∀ r ∈ db.rows t, r ∈ (applyOps E t ops db).1.rows t) ∧ ∀ ch ∈ (applyOps E t ops db).2, ch.new ∈ (applyOps E t ops db).1.rows t
  | [], _, _ => ⟨fun _ h => h, by simp [applyOps]⟩
  | op :: ops, db, h => by
    obtain ⟨r, rfl⟩ := h op (List.mem_cons_self ..)
    have ih := applyOps_ins (E := E) (t := t) (ops := ops) (db := db.setRows t (db.rows t ++ [r])) fun o ho => h o (List.mem_cons_of_mem _ ho)
    simp only [Db.setRows_same] at ih
    refine ⟨fun r' hr' => ?_, fun ch hch => ?_⟩
    · simp only [applyOps, applyOp]
      exact ih.1 r' (List.mem_append.2 (.inl hr'))
    · simp only [applyOps, applyOp, List.cons_append, List.nil_append, List.mem_cons] at hch ⊢
      rcases hch with rfl | hch
      · exact ih.1 r (by simp)
      · exact ih.2 ch hch

theorem applyOps_updates {E : Engine} {t : TableName} {σ : Int → Row → Row} : ∀ {l : List Nat} {db : Db}, l.Nodup →
    (∀ j, j ∉ l → ((applyOps E t (l.map fun i => .upd i σ) db).1.rows t)[j]? = (db.rows t)[j]?) ∧
      ∀ ch ∈ (applyOps E t (l.map fun i => .upd i σ) db).2, ch.new ∈ (applyOps E t (l.map fun i => .upd i σ) db).1.rows t
  | [], _, _ => ⟨fun _ _ => rfl, by simp [applyOps]⟩
  | i :: l, db, h => by
    obtain ⟨h1, h2⟩ := List.nodup_cons.1 h
    have ih := applyOps_updates (E := E) (t := t) (σ := σ) (l := l) (db := (applyOp E t (.upd i σ) db).1) h2
    have hkeep : ∀ j, j ≠ i → ((applyOp E t (.upd i σ) db).1.rows t)[j]? = (db.rows t)[j]? := by
      intro j hj
      simp only [applyOp]
      split
      · rfl
      · simp only [Db.setRows_same]
        rw [List.getElem?_set_ne (fun e => hj e.symm)]
    simp only [List.map_cons, applyOps]
    refine ⟨fun j hj => ?_, fun ch hch => ?_⟩
    · simp only [List.mem_cons, not_or] at hj
      rw [ih.1 j hj.2, hkeep j hj.1]
    · rcases List.mem_append.1 hch with hch | hch
      · refine List.mem_of_getElem? (i := i) ?_
        rw [ih.1 i h1]
        simp only [applyOp] at hch ⊢
        split at hch
        · simp at hch
        · rename_i old ho
          simp only [List.mem_singleton] at hch
          subst hch
          simp only [Db.setRows_same]
          rw [List.getElem?_set_self (List.getElem?_eq_some_iff.1 ho).1]
      · exact ih.2 ch hch

theorem applyOps_del {E : Engine} {t : TableName} : ∀ {ops : List RowOp} {db : Db}, (∀ op ∈ ops, ∃ w, op = .del w) →
    ∀ ch ∈ (applyOps E t ops db).2, ch.event = .delete
  | [], _, _ => by simp [applyOps]
  | op :: ops, db, h => by
    obtain ⟨w, rfl⟩ := h op (List.mem_cons_self ..)
    intro ch hch
    simp only [applyOps] at hch
    rcases List.mem_append.1 hch with hch | hch
    · simp only [applyOp] at hch
      split at hch
      · simp at hch
      · simp only [List.mem_singleton] at hch
        rw [hch]
    · exact applyOps_del (fun o ho => h o (List.mem_cons_of_mem _ ho)) ch hch

/-- Every row that was written is there afterwards. -/
theorem tidy_written {E : Engine} {t : TableName} {ops : List RowOp} {db : Db} (h : Tidy ops) :
    ∀ ch ∈ (applyOps E t ops db).2, ch.event ≠ .delete → ch.new ∈ (applyOps E t ops db).1.rows t := by
  intro ch hch he
  rcases h with h | ⟨l, σ, hl, rfl⟩ | h
  · exact (applyOps_ins h).2 ch hch
  · exact (applyOps_updates hl).2 ch hch
  · exact absurd (applyOps_del h ch hch) he

theorem tidy_one (op : RowOp) : Tidy [op] := by
  cases op with
  | ins r => exact .inl fun o ho => ⟨r, by simpa using ho⟩
  | upd i σ => exact .inr (.inl ⟨[i], σ, by simp, rfl⟩)
  | del w => exact .inr (.inr fun o ho => ⟨w, by simpa using ho⟩)

theorem tidy_writes {b : Backend} {fr : Frame} {t : TableName} {ops : List RowOp} (h : Tidy ops) : ∀ it ∈ writes b fr t ops, it.tidy := by
  intro it hit
  cases b <;> simp only [writes, List.mem_map, List.mem_singleton] at hit
  · obtain ⟨op, _, rfl⟩ := hit; exact tidy_one op
  · obtain ⟨op, _, rfl⟩ := hit; exact tidy_one op
  · subst hit; exact h

theorem tidy_stmt (s : Stmt) (db : Db) : Tidy (s.ops db) := by
  cases s with
  | insert t rs => exact .inl fun op ho => by obtain ⟨r, _, rfl⟩ := List.mem_map.1 ho; exact ⟨r, rfl⟩
  | update t w σ => exact .inr (.inl ⟨_, σ, nodup_targetsOf _ _, rfl⟩)
  | delete t w => exact .inr (.inr fun op ho => by obtain ⟨r, _, rfl⟩ := List.mem_map.1 ho; exact ⟨w, rfl⟩)

theorem tidy_start (E : Engine) (s : Stmt) (db : Db) : ∀ it ∈ E.start s db, it.tidy := tidy_writes (tidy_stmt s db)

theorem tidy_step {E : Engine} {it : Item} {db db' : Db} {new : List Item} (h : E.step it db = .ok (new, db')) : ∀ x ∈ new, x.tidy := by
  cases it with
  | write fr t ops =>
    simp only [Engine.step, Except.ok.injEq, Prod.mk.injEq] at h
    obtain ⟨rfl, rfl⟩ := h
    intro x hx
    obtain ⟨ch, _, hx⟩ := List.mem_flatMap.1 hx
    obtain ⟨tr, _, _, y, _, rfl⟩ := mem_fired.1 hx
    trivial
  | act fr ch a =>
    cases a with
    | markValues ct s c q =>
      simp only [Engine.step, Except.ok.injEq, Prod.mk.injEq] at h
      obtain ⟨rfl, rfl⟩ := h
      simp
    | markSelect ct sel t k s c q =>
      simp only [Engine.step, Except.ok.injEq, Prod.mk.injEq] at h
      obtain ⟨rfl, rfl⟩ := h
      simp
    | update u =>
      simp only [Engine.step] at h
      split at h
      · simp at h
      · simp only [Except.ok.injEq, Prod.mk.injEq] at h
        obtain ⟨rfl, rfl⟩ := h
        exact tidy_writes (.inr (.inl ⟨_, _, nodup_targetsOf _ _, rfl⟩))

/-- All rows are such that the columns take them as they are. -/
def Store.Takes (κ : Store) (db : Db) : Prop := ∀ t, ∀ r ∈ db.rows t, κ t r = some r

theorem stepStored_eq {E : Engine} {κ : Store} {it : Item} {db : Db} (ht : it.tidy) (h : ∀ new db', E.step it db = .ok (new, db') → κ.Takes db') :
    E.stepStored κ it db = (E.step it db).mapError .db := by
  cases it with
  | write fr t ops =>
    have hk := h _ _ rfl
    simp only [Engine.stepStored]
    rw [applyOpsStored_eq fun ch hc he => hk t _ (tidy_written ht ch hc he)]
    rfl
  | act fr ch a =>
    cases a with
    | markValues ct s c q => rfl
    | markSelect ct sel t k s c q => rfl
    | update u =>
      simp only [Engine.stepStored, Engine.step]
      split <;> rfl

/-- If at every moment the columns take what is there as it is, they make no difference. -/
theorem drainStored_eq {E : Engine} {κ : Store} : ∀ (n : Nat) (W : List Item) (db : Db), (∀ it ∈ W, it.tidy) →
    (∀ W' db', E.Reach W db W' db' → κ.Takes db') → E.drainStored κ n W db = (E.drain n W db).mapError .db
  | _, [], _, _, _ => by simp only [Engine.drainStored, Engine.drain, Except.mapError]
  | 0, _ :: _, _, _, _ => rfl
  | n + 1, it :: W, db, ht, h => by
    have h1 : E.stepStored κ it db = (E.step it db).mapError .db :=
      stepStored_eq (ht it (List.mem_cons_self ..)) fun new db' hs => h _ _ (.step hs (.refl _ _))
    simp only [Engine.drainStored, Engine.drain, h1]
    cases hs : E.step it db with
    | error e => rfl
    | ok p =>
      obtain ⟨new, db'⟩ := p
      simp only [Except.mapError]
      refine drainStored_eq n _ _ (fun x hx => ?_) fun W' db'' hr => h _ _ (.step hs hr)
      rcases List.mem_append.1 hx with hx | hx
      · exact tidy_step hs x hx
      · exact ht x (List.mem_cons_of_mem _ hx)

theorem execStored_eq {E : Engine} {κ : Store} {fuel : Nat} {s : Stmt} {db : Db} (h : ∀ W db', E.Reach (E.start s db) db W db' → κ.Takes db') :
    E.execStored κ fuel s db = (E.exec fuel s db).mapError .db := drainStored_eq _ _ _ (tidy_start E s db) h

/-! ## Columns that refuse or take, and do not change -/

/-- The columns change nothing. -/
def Store.Strict (κ : Store) : Prop := ∀ t r r', κ t r = some r' → r' = r

theorem strict_op {E : Engine} {κ : Store} (hκ : κ.Strict) {t : TableName} {op : RowOp} {db : Db} {p : Db × List Change}
    (h : applyOpStored E κ t op db = some p) (hdb : κ.Takes db) : p = applyOp E t op db ∧ κ.Takes p.1 := by
  cases op with
  | ins r =>
    simp only [applyOpStored, Option.map_eq_some_iff] at h
    obtain ⟨r', h1, rfl⟩ := h
    have := hκ _ _ _ h1
    subst this
    refine ⟨rfl, fun t' r hr => ?_⟩
    by_cases e : t' = t
    · subst e
      simp only [Db.setRows_same, List.mem_append, List.mem_singleton] at hr
      rcases hr with hr | rfl
      · exact hdb _ r hr
      · exact h1
    · simp only [Db.setRows, if_neg e] at hr
      exact hdb _ r hr
  | upd i σ =>
    simp only [applyOpStored, applyOp] at h ⊢
    split at h
    · rename_i ho
      simp only [Option.some.injEq] at h
      subst h
      simp only [ho]
      exact ⟨trivial, hdb⟩
    · rename_i old ho
      simp only [Option.map_eq_some_iff] at h
      obtain ⟨r', h1, rfl⟩ := h
      have := hκ _ _ _ h1
      subst this
      simp only [ho]
      refine ⟨trivial, fun t' r hr => ?_⟩
      by_cases e : t' = t
      · subst e
        simp only [Db.setRows_same] at hr
        rcases List.mem_or_eq_of_mem_set hr with hr | rfl
        · exact hdb _ r hr
        · exact h1
      · simp only [Db.setRows, if_neg e] at hr
        exact hdb _ r hr
  | del w =>
    simp only [applyOpStored, applyOp] at h ⊢
    split at h
    · rename_i ho
      simp only [Option.some.injEq] at h
      subst h
      simp only [ho]
      exact ⟨trivial, hdb⟩
    · rename_i old ho
      simp only [Option.some.injEq] at h
      subst h
      simp only [ho]
      refine ⟨trivial, fun t' r hr => ?_⟩
      by_cases e : t' = t
      · subst e
        simp only [Db.setRows_same] at hr
        exact hdb _ r (List.mem_of_mem_eraseP hr)
      · simp only [Db.setRows, if_neg e] at hr
        exact hdb _ r hr

theorem strict_ops {E : Engine} {κ : Store} (hκ : κ.Strict) {t : TableName} : ∀ {ops : List RowOp} {db : Db} {p : Db × List Change},
    applyOpsStored E κ t ops db = some p → κ.Takes db → p = applyOps E t ops db ∧ κ.Takes p.1
  | [], db, p, h, hdb => by
    simp only [applyOpsStored, Option.some.injEq] at h
    subst h
    exact ⟨rfl, hdb⟩
  | op :: ops, db, p, h, hdb => by
    simp only [applyOpsStored] at h
    split at h
    · simp at h
    · rename_i q hq
      obtain ⟨rfl, h2⟩ := strict_op hκ hq hdb
      simp only [Option.map_eq_some_iff] at h
      obtain ⟨p', h3, rfl⟩ := h
      obtain ⟨rfl, h4⟩ := strict_ops hκ h3 h2
      exact ⟨rfl, h4⟩

theorem strict_step {E : Engine} {κ : Store} (hκ : κ.Strict) {it : Item} {db : Db} (hdb : κ.Takes db) :
    E.stepStored κ it db = .error .refused ∨ E.stepStored κ it db = (E.step it db).mapError .db ∧ ∀ new db', E.step it db = .ok (new, db') → κ.Takes db' := by
  cases it with
  | write fr t ops =>
    simp only [Engine.stepStored]
    cases h : applyOpsStored E κ t ops db with
    | none => exact .inl rfl
    | some p =>
      obtain ⟨rfl, h2⟩ := strict_ops hκ h hdb
      refine .inr ⟨rfl, fun new db' hs => ?_⟩
      simp only [Engine.step, Except.ok.injEq, Prod.mk.injEq] at hs
      exact hs.2 ▸ h2
  | act fr ch a =>
    refine .inr ?_
    cases a with
    | markValues ct s c q =>
      refine ⟨rfl, fun new db' hs => ?_⟩
      simp only [Engine.step, Except.ok.injEq, Prod.mk.injEq] at hs
      exact hs.2 ▸ hdb
    | markSelect ct sel t k s c q =>
      refine ⟨rfl, fun new db' hs => ?_⟩
      simp only [Engine.step, Except.ok.injEq, Prod.mk.injEq] at hs
      exact hs.2 ▸ hdb
    | update u =>
      simp only [Engine.stepStored, Engine.step]
      split
      · exact ⟨rfl, by simp⟩
      · refine ⟨rfl, fun new db' hs => ?_⟩
        simp only [Except.ok.injEq, Prod.mk.injEq] at hs
        exact hs.2 ▸ hdb

/-- A statement that is not refused went only through states that the columns take. -/
theorem strict_reach {E : Engine} {κ : Store} (hκ : κ.Strict) : ∀ (n : Nat) (W : List Item) (db x : Db), E.drain n W db = .ok x → κ.Takes db →
    E.drainStored κ n W db ≠ .error .refused → ∀ W' db', E.Reach W db W' db' → κ.Takes db'
  | _, [], db, _, _, hdb, _, W', db', hr => by
    generalize hW : ([] : List Item) = W at hr
    cases hr with
    | refl => exact hdb
    | step hs hr => exact absurd hW (by simp)
  | 0, _ :: _, _, _, hd, _, _, _, _, _ => by simp [Engine.drain] at hd
  | n + 1, it :: W, db, x, hd, hdb, hne, W', db', hr => by
    simp only [Engine.drain] at hd
    simp only [Engine.drainStored] at hne
    rcases strict_step (E := E) (it := it) hκ hdb with h | ⟨h, h2⟩
    · rw [h] at hne
      exact absurd rfl hne
    · cases hs : E.step it db with
      | error e => rw [hs] at hd; simp at hd
      | ok p =>
        obtain ⟨new, db1⟩ := p
        rw [hs] at hd
        rw [h, hs] at hne
        simp only [Except.mapError] at hne hd
        generalize hV : it :: W = V at hr
        cases hr with
        | refl => exact hdb
        | step hs' hr =>
          simp only [List.cons.injEq] at hV
          obtain ⟨rfl, rfl⟩ := hV
          rw [hs] at hs'
          simp only [Except.ok.injEq, Prod.mk.injEq] at hs'
          obtain ⟨rfl, rfl⟩ := hs'
          exact strict_reach hκ n _ _ x hd (h2 _ _ hs) hne _ _ hr

/-- The statement is refused iff at some moment something is there that the columns do not take. -/
theorem refused_iff {E : Engine} {κ : Store} (hκ : κ.Strict) {fuel : Nat} {s : Stmt} {db x : Db} (he : E.exec fuel s db = .ok x) (hdb : κ.Takes db) :
    E.execStored κ fuel s db = .error .refused ↔ ∃ W db', E.Reach (E.start s db) db W db' ∧ ¬ κ.Takes db' := by
  constructor
  · intro h
    apply Classical.byContradiction
    intro hn
    have := execStored_eq (fuel := fuel) (κ := κ) (E := E) (s := s) (db := db) fun W db' hr => Classical.byContradiction fun hk => hn ⟨W, db', hr, hk⟩
    rw [h, he] at this
    simp [Except.mapError] at this
  · rintro ⟨W, db', hr, hk⟩
    apply Classical.byContradiction
    intro hn
    exact hk (strict_reach hκ _ _ _ _ he hdb hn _ _ hr)

/-! ## The aggregate's column -/

theorem roundTo_whole {u : Nat} (hu : 0 < u) {n : Int} (h : (u : Int) ∣ n) : roundTo u n = n := by
  have key : ∀ k : Int, (2 * (u * k) + u) / (2 * u) * u = u * k := by
    intro k
    have hu' : (0 : Int) < u := by omega
    have : (2 * (u * k) + u : Int) = u + (2 * u) * k := by
      rw [Int.add_comm, Int.mul_assoc]
    rw [this, Int.add_mul_ediv_left _ _ (by omega), Int.ediv_eq_zero_of_lt (by omega) (by omega), Int.zero_add, Int.mul_comm]
  obtain ⟨k, rfl⟩ := h
  unfold roundTo
  split
  · exact key k
  · have := key (-k)
    rw [Int.mul_neg] at this
    rw [this, Int.neg_neg]

theorem storePositive_some {b : Backend} {u : Nat} {n : Int} (hu : 0 < u) (h0 : 0 ≤ n) (hd : (u : Int) ∣ n) (hl : ∀ l, b.intLimit = some l → n ≤ l * u) :
    b.storePositive u (.int n) = some (.int n) := by
  have hm : (if b = .sqlite then n else roundTo u n) = n := by
    split
    · rfl
    · exact roundTo_whole hu hd
  simp only [Backend.storePositive, hm]
  rw [if_neg (by omega)]
  cases h : b.intLimit with
  | none => rfl
  | some l =>
    have := hl l h
    simp only []
    rw [if_neg (by omega)]

theorem column_takes {b : Backend} {u : Nat} (hu : 0 < u) {a : AggDenorm} {db : Db} (h : FitsColumn b u a db) : (a.column b u).Takes db := by
  intro t r hr
  simp only [AggDenorm.column, positiveColumn]
  split
  · rename_i e
    subst e
    obtain ⟨n, h1, h2, h3, h4⟩ := h r hr
    rw [h1, storePositive_some hu h2 h3 h4]
    simp only [Option.map_some, Option.some.injEq]
    funext c
    simp only [Row.set]
    split
    · rename_i e; rw [e, h1]
    · rfl
  · rfl

/-- For whole numbers the column refuses or takes. -/
theorem column_strict (a : AggDenorm) (b : Backend) : (a.column b 1).Strict := by
  intro t r r' h
  simp only [AggDenorm.column, positiveColumn] at h
  split at h
  · simp only [Option.map_eq_some_iff] at h
    obtain ⟨v, h1, rfl⟩ := h
    have hv : v = r a.fieldname := by
      cases hr : r a.fieldname with
      | null => rw [hr] at h1; simp [Backend.storePositive] at h1
      | text s => rw [hr] at h1; simpa [Backend.storePositive] using h1.symm
      | int n =>
        rw [hr] at h1
        have hm : (if b = .sqlite then n else roundTo 1 n) = n := by
          split
          · rfl
          · exact roundTo_whole (by decide) ⟨n, by simp⟩
        simp only [Backend.storePositive, hm] at h1
        split at h1
        · simp at h1
        · split at h1
          · simpa using h1.symm
          · split at h1
            · simp at h1
            · simpa using h1.symm
    funext c
    simp only [Row.set]
    split
    · rename_i e; rw [e, hv]
    · rfl
  · simpa using h.symm

/-! ## Sums of whole numbers are whole at every moment -/

theorem whole_add {u : Nat} {v w : Val} (hv : v.Whole u) (hw : w.Whole u) : (Val.add v w).Whole u := by
  intro n h
  cases v <;> cases w <;> simp only [Val.add, reduceCtorEq, Val.int.injEq] at h
  exact h ▸ Int.dvd_add (hv _ rfl) (hw _ rfl)

theorem whole_sub {u : Nat} {v w : Val} (hv : v.Whole u) (hw : w.Whole u) : (Val.sub v w).Whole u := by
  intro n h
  cases v <;> cases w <;> simp only [Val.sub, reduceCtorEq, Val.int.injEq] at h
  exact h ▸ Int.dvd_sub (hv _ rfl) (hw _ rfl)

/-- A row write keeps the numbers whole. -/
def OpWhole (c : Col) (u : Nat) : RowOp → Prop
  | .ins r => (r c).Whole u
  | .upd _ σ => ∀ x r, (r c).Whole u → (σ x r c).Whole u
  | .del _ => True

theorem applyOp_whole {E : Engine} {t : TableName} {op : RowOp} {db : Db} {T : TableName} {c : Col} {u : Nat} (h : ∀ o ∈ db.rows T, (o c).Whole u)
    (hop : t = T → OpWhole c u op) : (∀ o ∈ (applyOp E t op db).1.rows T, (o c).Whole u) ∧
      ∀ ch ∈ (applyOp E t op db).2, ch.table = T → (ch.new c).Whole u ∧ (ch.old c).Whole u := by
  by_cases ht : t = T
  · have hop := hop ht
    obtain ⟨x, hx, hch, hu, hi, hd⟩ := applyOp_effect E t op db
    rw [hch]
    rw [← ht] at h ⊢
    generalize (applyOp E t op db).1.rows t = rows' at hx
    cases hx with
    | none => exact ⟨h, by simp [effectChange]⟩
    | ins r =>
      have := hi _ _ rfl
      subst this
      refine ⟨fun o ho => ?_, fun ch hch => ?_⟩
      · rcases List.mem_append.1 ho with ho | ho
        · exact h o ho
        · simp only [List.mem_singleton] at ho
          exact ho ▸ hop
      · simp only [effectChange, List.mem_singleton] at hch
        subst hch
        exact fun _ => ⟨hop, hop⟩
    | upd l1 l2 old new he =>
      obtain ⟨i, σ, rfl, rfl⟩ := hu _ _ rfl
      have hold : (old c).Whole u := h old (by rw [he]; simp)
      have hnew := hop (E.rand db.draws) old hold
      refine ⟨fun o ho => ?_, fun ch hch => ?_⟩
      · rcases List.mem_append.1 ho with ho | ho
        · exact h o (by rw [he]; simp [ho])
        · rcases List.mem_cons.1 ho with rfl | ho
          · exact hnew
          · exact h o (by rw [he]; simp [ho])
      · simp only [effectChange, List.mem_singleton] at hch
        subst hch
        exact fun _ => ⟨hnew, hold⟩
    | del l1 l2 old he =>
      have hold : (old c).Whole u := h old (by rw [he]; simp)
      refine ⟨fun o ho => h o ?_, fun ch hch => ?_⟩
      · rw [he]
        rcases List.mem_append.1 ho with ho | ho <;> simp [ho]
      · simp only [effectChange, List.mem_singleton] at hch
        subst hch
        exact fun _ => ⟨hold, hold⟩
  · refine ⟨?_, fun ch hch hct => absurd ?_ ht⟩
    · rw [applyOp_rows_other E op db (fun e => ht e.symm)]
      exact h
    · obtain ⟨x, _, hc, _⟩ := applyOp_effect E t op db
      rw [hc] at hch
      rcases x with _ | ⟨e, o, n⟩
      · simp [effectChange] at hch
      · simp only [effectChange, List.mem_singleton] at hch
        subst hch
        exact hct

/-- The work left keeps numbers whole. -/
def WholeItem (E : Engine) (a : AggDenorm) (f : Col) (u : Nat) : Item → Prop
  | .write _ t ops => (t = a.model.table → ∀ op ∈ ops, OpWhole a.fieldname u op) ∧ (t = a.related.table → ∀ op ∈ ops, OpWhole f u op)
  | .act _ ch x => (ch.table = a.related.table → (ch.new f).Whole u ∧ (ch.old f).Whole u) ∧ ∃ tr ∈ E.triggers, x ∈ tr.actions ∧ tr.table = ch.table

structure WholeInv (E : Engine) (a : AggDenorm) (f : Col) (u : Nat) (W : List Item) (db : Db) : Prop where
  stored : ∀ r ∈ db.rows a.model.table, (r a.fieldname).Whole u
  summed : ∀ o ∈ db.rows a.related.table, (o f).Whole u
  items : ∀ it ∈ W, WholeItem E a f u it

/-- An action of the aggregate belongs to a trigger of the related table. -/
theorem agg_home {E : Engine} {D : List Denorm} {a : AggDenorm} (hE : Installed E D) (hD : AggDeclared E.backend D a) {tr : DbTrigger}
    (htr : tr ∈ E.triggers) {x : Action} (hx : x = a.increment ∨ x = a.decrement) (hin : x ∈ tr.actions) : tr.table = a.related.table := by
  obtain ⟨ev, _, hn⟩ := agg_holder hE hD htr hx hin
  obtain ⟨tr', htr', h1, _, _, _, _, h2⟩ := agg_installed hE hD ev
  have htr1 := htr
  rw [hE] at htr htr'
  rw [installed_unique htr htr' (hn.trans h2.symm), h1]

theorem wholeInv_step {E : Engine} {D : List Denorm} {a : AggDenorm} {f : Col} {u : Nat} (hE : Installed E D) (hD : AggDeclared E.backend D a)
    (hF : RelevantFree D a) (hf : a.agg = .sum f) : StepInv E (WholeInv E a f u) where
  perm hp h := ⟨h.stored, h.summed, fun it hit => h.items it (hp.mem_iff.2 hit)⟩
  writeNil h := ⟨h.stored, h.summed, fun it hit => h.items it (List.mem_cons_of_mem _ hit)⟩
  writeOp {fr t op ops W db} h := by
    have hw := h.items _ (List.mem_cons_self ..)
    have h1 := applyOp_whole (E := E) (t := t) (op := op) h.stored fun ht => hw.1 ht op (List.mem_cons_self ..)
    have h2 := applyOp_whole (E := E) (t := t) (op := op) h.summed fun ht => hw.2 ht op (List.mem_cons_self ..)
    refine ⟨h1.1, h2.1, fun it hit => ?_⟩
    rcases List.mem_cons.1 hit with rfl | hit
    · exact ⟨fun ht o ho => hw.1 ht o (List.mem_cons_of_mem _ ho), fun ht o ho => hw.2 ht o (List.mem_cons_of_mem _ ho)⟩
    · rcases List.mem_append.1 hit with hit | hit
      · obtain ⟨ch, hch, hit⟩ := List.mem_flatMap.1 hit
        obtain ⟨tr, htr, hen, x, hx, rfl⟩ := mem_fired.1 hit
        refine ⟨h2.2 ch hch, tr, htr, hx, ?_⟩
        simp only [Engine.enters, Bool.and_eq_true, decide_eq_true_eq] at hen
        exact hen.1.1.1
      · exact h.items it (List.mem_cons_of_mem _ hit)
  markValues h := ⟨h.stored, h.summed, fun it hit => h.items it (List.mem_cons_of_mem _ hit)⟩
  markSelect h := ⟨h.stored, h.summed, fun it hit => h.items it (List.mem_cons_of_mem _ hit)⟩
  update {fr ch v W db} _ h := by
    refine ⟨h.stored, h.summed, fun it hit => ?_⟩
    rcases List.mem_append.1 hit with hit | hit
    · obtain ⟨hch, tr, htr, hx, htc⟩ := h.items _ (List.mem_cons_self ..)
      obtain ⟨l, rfl, hl⟩ := mem_writes hit
      refine ⟨fun ht op ho => ?_, fun ht op ho => ?_⟩
      · obtain ⟨i, _, rfl⟩ := List.mem_map.1 (hl op ho)
        intro x r hr
        by_cases hc : a.fieldname = v.col
        · have hown := agg_own hE hD htr hx ht hc.symm
          have htab := htc.symm.trans (agg_home hE hD htr hown hx)
          have hw := hch htab
          rw [hc] at hr ⊢
          simp only [UpdAction.set, Row.set, if_true]
          rcases hown with e | e <;> simp only [AggDenorm.increment, AggDenorm.decrement, Action.update.injEq, hf, Agg.incr, Agg.decr] at e <;> subst e
          · exact whole_add hr hw.1
          · exact whole_sub hr hw.2
        · rw [UpdAction.set_other _ _ _ _ _ _ hc]
          exact hr
      · obtain ⟨i, _, rfl⟩ := List.mem_map.1 (hl op ho)
        intro x r hr
        rw [UpdAction.set_other]
        · exact hr
        · intro hcu
          obtain ⟨dn, hdn, hw⟩ := managed_writes hE ⟨tr, htr, v, hx, rfl, rfl⟩
          exact hF dn hdn f (by simp [AggDenorm.relevant, hf]) (by rw [hcu, ← ht]; exact hw)
    · exact h.items it (List.mem_cons_of_mem _ hit)

theorem wholeInv_start {E : Engine} {a : AggDenorm} {f : Col} {u : Nat} {S : List (TableName × Col)} {s : Stmt} {db : Db} (hf : a.agg = .sum f)
    (hL : AggLegal a S db s) (hw : WholeLegal a u s) (h1 : ∀ r ∈ db.rows a.model.table, (r a.fieldname).Whole u)
    (h2 : ∀ o ∈ db.rows a.related.table, a.WholeRow u o) : WholeInv E a f u (E.start s db) db := by
  refine ⟨h1, fun o ho => h2 o ho f hf, fun it hit => ?_⟩
  obtain ⟨l, rfl, hl⟩ := mem_writes hit
  refine ⟨fun ht op ho => ?_, fun ht op ho => ?_⟩
  · cases s with
    | insert t rs =>
      obtain ⟨r, hr, rfl⟩ := List.mem_map.1 (hl op ho)
      have := ((hL.2 ht).1 r hr).1
      simp only [OpWhole, this]
      intro n hn
      simp only [Val.int.injEq] at hn
      exact hn ▸ Int.dvd_zero _
    | update t w σ =>
      obtain ⟨i, _, rfl⟩ := List.mem_map.1 (hl op ho)
      intro x r hr
      rw [(hL.2 ht x r).2]
      exact hr
    | delete t w =>
      obtain ⟨i, _, rfl⟩ := List.mem_map.1 (hl op ho)
      trivial
  · cases s with
    | insert t rs =>
      obtain ⟨r, hr, rfl⟩ := List.mem_map.1 (hl op ho)
      exact hw ht r hr f hf
    | update t w σ =>
      obtain ⟨i, _, rfl⟩ := List.mem_map.1 (hl op ho)
      intro x r hr
      have hx : a.WholeRow u r := by
        intro f' hf'
        rw [hf, Agg.sum.injEq] at hf'
        exact hf' ▸ hr
      exact hw ht x r hx f hf
    | delete t w =>
      obtain ⟨i, _, rfl⟩ := List.mem_map.1 (hl op ho)
      trivial

end Denorm
