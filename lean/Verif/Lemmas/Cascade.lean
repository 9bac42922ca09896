import Verif.Spec.Cascade
import Verif.Lemmas.Upsert
import Verif.Lemmas.Finishes
/-!
# What foreign keys do within a DELETE
-/
namespace Denorm

theorem Row.set_away {r : Row} {c d : Col} {v : Val} (h : c ≠ d) : r.set d v c = r c := by simp [Row.set, h]

/-- Work that is done leaves the rest of the work as it was. -/
theorem StepInv.drain_rest {E : Engine} {I : List Item → Db → Prop} (h : StepInv E I) {R : List Item} :
    ∀ (n : Nat) (W : List Item) (db db' : Db), E.drain n W db = .ok db' → I (W ++ R) db → I R db'
  | _, [], db, db', hd, hI => by
    simp only [Engine.drain, Except.ok.injEq] at hd
    exact hd ▸ hI
  | 0, _ :: _, _, _, hd, _ => by simp [Engine.drain] at hd
  | n + 1, it :: W, db, db', hd, hI => by
    rw [Engine.drain] at hd
    cases hs : E.step it db with
    | error e => rw [hs] at hd; cases hd
    | ok p =>
      rw [hs] at hd
      refine h.drain_rest n _ _ _ hd ?_
      have := h.step hs hI
      simpa using this

/-- The triggers that have still to run. -/
def Todo.items (E : Engine) : Todo → List Item
  | .fire ch => E.fired .top ch
  | _ => []

theorem items_rows (E : Engine) (b : Backend) (t : TableName) (ops : List RowOp) : (todos b t ops).flatMap (Todo.items E) = [] := by
  cases b <;> simp [todos, Todo.items]

theorem items_follow (E : Engine) (fs : List ForeignRef) (chs : List Change) :
    (chs.flatMap (follow fs)).flatMap (Todo.items E) = chs.flatMap (E.fired .top) := by
  rw [List.flatMap_assoc]
  congr 1
  funext ch
  have : ∀ l : List ForeignRef, (l.map (Todo.refer · ch.old)).flatMap (Todo.items E) = [] := by
    intro l; simp [Todo.items]
  by_cases he : ch.event = .delete
  · simp [follow, he, this, Todo.items, List.flatMap_append]
  · simp [follow, he, Todo.items]

theorem isAct_items {E : Engine} {T : List Todo} {it : Item} (h : it ∈ T.flatMap (Todo.items E)) : it.isAct := by
  obtain ⟨td, _, h⟩ := List.mem_flatMap.1 h
  cases td with
  | fire ch => exact isAct_fired (chs := [ch]) (by simpa [Todo.items] using h)
  | rows => simp [Todo.items] at h
  | refer => simp [Todo.items] at h

/-- `P t op` holds of every row write that is left. -/
def TodoOk (P : TableName → RowOp → Prop) (fs : List ForeignRef) : Todo → Prop
  | .rows t ops => ∀ op ∈ ops, P t op
  | .refer f _ => f ∈ fs
  | .fire _ => True

theorem todoOk_todos {P : TableName → RowOp → Prop} {fs : List ForeignRef} {b : Backend} {t : TableName} {ops : List RowOp}
    (h : ∀ op ∈ ops, P t op) {td : Todo} (htd : td ∈ todos b t ops) : TodoOk P fs td := by
  cases b <;> simp only [todos, List.mem_map, List.mem_singleton] at htd
  · obtain ⟨op, ho, rfl⟩ := htd; intro op' ho'; rw [List.mem_singleton.1 ho']; exact h op ho
  · obtain ⟨op, ho, rfl⟩ := htd; intro op' ho'; rw [List.mem_singleton.1 ho']; exact h op ho
  · subst htd; exact h

theorem todoOk_follow {P : TableName → RowOp → Prop} {fs : List ForeignRef} {ch : Change} {td : Todo} (htd : td ∈ follow fs ch) :
    TodoOk P fs td := by
  rcases List.mem_append.1 htd with h | h
  · by_cases he : ch.event = .delete
    · rw [if_pos he] at h
      obtain ⟨f, hf, rfl⟩ := List.mem_map.1 h
      exact (List.mem_filter.1 hf).1
    · rw [if_neg he] at h; cases h
  · rw [List.mem_singleton.1 h]; trivial

/-- An invariant of the engine that survives legal row writes survives a DELETE with everything its foreign keys do. -/
theorem chain_inv {E : Engine} {I : List Item → Db → Prop} (hI : StepInv E I) {P : TableName → RowOp → Prop} {fs : List ForeignRef}
    (htop : ∀ {t : TableName} {op : RowOp} {W : List Item} {db : Db}, (∀ it ∈ W, it.isAct) → P t op → I W db →
      I ((applyOp E t op db).2.flatMap (E.fired .top) ++ W) (applyOp E t op db).1)
    (hf : ∀ f ∈ fs, ∀ o db, ∀ op ∈ f.ops o db, P f.table op) {fuel : Nat} : ∀ (n : Nat) (T : List Todo) (db db' : Db),
    E.chain fs fuel n T db = .ok db' → (∀ td ∈ T, TodoOk P fs td) → I (T.flatMap (Todo.items E)) db → I [] db'
  | _, [], db, db', he, _, h => by
    simp only [Engine.chain, Except.ok.injEq] at he
    exact he ▸ h
  | 0, _ :: _, _, _, he, _, _ => by simp [Engine.chain] at he
  | n + 1, .rows t ops :: T, db, db', he, hT, h => by
    rw [Engine.chain] at he
    have hph : PhaseInv E t fun ops W db => I W db ∧ ∀ op ∈ ops, P t op :=
      { nested := fun _ =>
          { perm := fun hp h => ⟨hI.perm hp h.1, h.2⟩
            writeNil := fun h => ⟨hI.writeNil h.1, h.2⟩
            writeOp := fun h => ⟨hI.writeOp h.1, h.2⟩
            markValues := fun h => ⟨hI.markValues h.1, h.2⟩
            markSelect := fun h => ⟨hI.markSelect h.1, h.2⟩
            update := fun hb h => ⟨hI.update hb h.1, h.2⟩ }
        top := fun ha h => ⟨htop ha (h.2 _ (List.mem_cons_self ..)) h.1, fun op ho => h.2 op (List.mem_cons_of_mem _ ho)⟩ }
    have h1 := (hph.writeAll (ops := ops) (rest := []) (W := T.flatMap (Todo.items E)) (db := db) (fun it hit => isAct_items hit)
      ⟨by simpa [Todo.items] using h, by simpa [TodoOk] using hT _ (List.mem_cons_self ..)⟩).1
    refine chain_inv hI htop hf n _ _ _ he ?_ ?_
    · intro td htd
      rcases List.mem_append.1 htd with htd | htd
      · obtain ⟨ch, _, htd⟩ := List.mem_flatMap.1 htd
        exact todoOk_follow htd
      · exact hT td (List.mem_cons_of_mem _ htd)
    · rw [List.flatMap_append, items_follow]
      exact h1
  | n + 1, .refer f o :: T, db, db', he, hT, h => by
    rw [Engine.chain] at he
    refine chain_inv hI htop hf n _ _ _ he ?_ ?_
    · intro td htd
      rcases List.mem_append.1 htd with htd | htd
      · exact todoOk_todos (hf f (hT _ (List.mem_cons_self ..)) o db) htd
      · exact hT td (List.mem_cons_of_mem _ htd)
    · rw [List.flatMap_append, items_rows]
      simpa [Todo.items] using h
  | n + 1, .fire ch :: T, db, db', he, hT, h => by
    rw [Engine.chain] at he
    cases hd : E.drain fuel (E.fired .top ch) db with
    | error e => rw [hd] at he; cases he
    | ok db1 =>
      rw [hd] at he
      refine chain_inv hI htop hf n _ _ _ he (fun td htd => hT td (List.mem_cons_of_mem _ htd)) ?_
      exact hI.drain_rest fuel _ _ _ hd (by simpa [Todo.items] using h)

theorem Engine.execRefs_delete {E : Engine} (hb : E.backend ≠ .mysql) {fs : List ForeignRef} {fuel : Nat} {t : TableName} {w : Row → Bool}
    {db : Db} : E.execRefs fs fuel (.delete t w) db = E.chain fs fuel fuel (todos E.backend t ((Stmt.delete t w).ops db)) db := by
  rw [Engine.execRefs]
  cases h : E.backend with
  | mysql => exact absurd h hb
  | sqlite => rfl
  | postgresql => rfl

theorem mem_refOps {f : ForeignRef} {o : Row} {db : Db} {op : RowOp} (h : op ∈ f.ops o db) :
    (f.action = .cascade ∧ op = .del (f.points o)) ∨ (f.action = .setNull ∧ ∃ i, op = .upd i fun _ r => r.set f.col .null) := by
  unfold ForeignRef.ops at h
  cases ha : f.action with
  | cascade =>
    rw [ha] at h
    obtain ⟨_, _, rfl⟩ := List.mem_map.1 h
    exact .inl ⟨rfl, rfl⟩
  | setNull =>
    rw [ha] at h
    obtain ⟨i, _, rfl⟩ := List.mem_map.1 h
    exact .inr ⟨rfl, i, rfl⟩

theorem mem_deleteOps {t : TableName} {w : Row → Bool} {db : Db} {op : RowOp} (h : op ∈ (Stmt.delete t w).ops db) : op = .del w := by
  obtain ⟨_, _, rfl⟩ := List.mem_map.1 h
  rfl

/-! ## Marking -/

/-- One statement of a history. -/
theorem track_execRefs {E : Engine} {cb : Callback} (hb : E.backend ≠ .mysql) (hT : Tracks E cb) (hN : NoReentry E)
    {C : Db → Row → Prop} (hC : TrackedProp cb C) {fs : List ForeignRef} (hf : RefsOk cb fs) {fuel : Nat} {s : Stmt} {db db' : Db}
    (he : E.execRefs fs fuel s db = .ok db')
    (hL : LegalStmt E cb db s ∧ ∀ t w, s = .delete t w → ∀ d ∈ cb.deps, d.dep.other.table = t → d.dep.m2mTable = none) (hK : KeysOk cb db)
    (hg : ∀ r ∈ db.rows cb.model.table, Marked cb.model db r ∨ C db r) :
    KeysOk cb db' ∧ ∀ r ∈ db'.rows cb.model.table, Marked cb.model db' r ∨ C db' r := by
  cases s with
  | insert t rs => exact track_exec hT hN hC he hL.1 hK hg
  | update t w σ => exact track_exec hT hN hC he hL.1 hK hg
  | delete t w =>
    rw [Engine.execRefs_delete hb] at he
    obtain ⟨rank, hR⟩ := hN.ranked
    have h0 : ∀ (t : TableName) (db : Db), LegalStmt E cb db (.insert t []) := fun t db r hr => by cases hr
    have := chain_inv (P := fun t op => LegalOp cb t [] op) (fs := fs)
      (trackInv E cb hT rank hR (.insert t []) C hC)
      (fun {t' op W db} ha hP h => by
        have h1 := trackInv_top hT hR hC ha (h.swap ha (h0 t' db)) (LegalOp.stmt hP (h0 t' db))
        refine h1.swap ?_ (h0 t _)
        intro it hit
        rcases List.mem_append.1 hit with hit | hit
        · exact isAct_fired hit
        · exact ha it hit)
      (fun f hff o db op ho => by
        have hok := hf f hff
        rcases mem_refOps ho with ⟨ha, rfl⟩ | ⟨ha, i, rfl⟩
        · simp only [ha] at hok
          exact hok
        · simp only [ha] at hok
          intro p hp ht x r
          exact Row.set_away (hok p hp ht))
      fuel _ _ _ he (fun td htd => todoOk_todos (fun op ho => by rw [mem_deleteOps ho]; exact hL.2 t w rfl) htd)
      (by rw [items_rows]; exact ⟨h0 t db, hK, by simp, fun r hr => (hg r hr).imp id .inr⟩)
    refine ⟨this.keys, fun r hr => ?_⟩
    rcases this.good r hr with h1 | ⟨it, h2, _⟩ | h4
    · exact .inl h1
    · simp at h2
    · exact .inr h4

theorem track_runRefs {E : Engine} {cb : Callback} (hb : E.backend ≠ .mysql) (hT : Tracks E cb) (hN : NoReentry E)
    {C : Db → Row → Prop} (hC : TrackedProp cb C) {fs : List ForeignRef} (hf : RefsOk cb fs) {fuel : Nat} :
    ∀ (ss : List Stmt) (db : Db), LegalRefs E cb fs fuel ss db → KeysOk cb db →
    (∀ r ∈ db.rows cb.model.table, Marked cb.model db r ∨ C db r) →
    KeysOk cb (E.runRefs fs fuel ss db) ∧
      ∀ r ∈ (E.runRefs fs fuel ss db).rows cb.model.table, Marked cb.model (E.runRefs fs fuel ss db) r ∨ C (E.runRefs fs fuel ss db) r
  | [], db, _, hK, hg => ⟨hK, hg⟩
  | s :: ss, db, hL, hK, hg => by
    obtain ⟨hL1, hL2⟩ := hL
    simp only [Engine.runRefs]
    cases he : E.execRefs fs fuel s db with
    | ok db' =>
      rw [he] at hL2
      obtain ⟨h1, h2⟩ := track_execRefs hb hT hN hC hf he hL1 hK hg
      exact track_runRefs hb hT hN hC hf ss db' hL2 h1 h2
    | error e =>
      rw [he] at hL2
      exact track_runRefs hb hT hN hC hf ss db hL2 hK hg

/-! ## Aggregates -/

section
variable {E : Engine} {D : List Denorm} {a : AggDenorm} {S : List (TableName × Col)} {rank : String → Nat}

/-- A row write that deletes or updates, with no insertions to come. -/
theorem aggInv_removal (hC : AggCtx E D a S rank) {s : Stmt} {t : TableName} {op : RowOp} {W : List Item} {db : Db}
    (hL : AggLegal a S db (op.stmt t)) (hop : ∀ r, op ≠ .ins r) (hW : ∀ it ∈ W, it.isAct) (h : AggInv E a S rank s [] W db) :
    AggInv E a S rank s [] ((applyOp E t op db).2.flatMap (E.fired .top) ++ W) (applyOp E t op db).1 := by
  have h1 := aggInv_top hC hL hW (h.swap (op.stmt_top t) hop)
  rw [op.stmt_table t] at h1
  exact ⟨h1.items, h1.ints, h1.sums, by simp, fun _ r hr => (by cases hr), fun _ _ => List.Pairwise.nil⟩

theorem agg_execRefs (hb : E.backend ≠ .mysql) (hE : Installed E D) (hD : AggDeclared E.backend D a) (hN : NoReentry E)
    (hS : IntClosed E.backend D S) (hm : (a.model.table, a.fieldname) ∈ S) {fs : List ForeignRef} (hf : AggRefsOk a S fs) {fuel : Nat} {s : Stmt}
    {db db' : Db} (hL : AggLegal a S db s) (hI : ∀ t, ∀ r ∈ db.rows t, IntRow S t r) (hok : AggOk a db)
    (he : E.execRefs fs fuel s db = .ok db') : AggOk a db' ∧ ∀ t, ∀ r ∈ db'.rows t, IntRow S t r := by
  cases s with
  | insert t rs => exact agg_exec hE hD hN hS hm hL hI hok he
  | update t w σ => exact agg_exec hE hD hN hS hm hL hI hok he
  | delete t w =>
    rw [Engine.execRefs_delete hb] at he
    obtain ⟨rank, hR⟩ := hN.ranked
    have hC : AggCtx E D a S rank := ⟨hE, hD, hR, hS, hm⟩
    have hz : AggInv E a S rank (.insert t []) [] [] db := by
      refine ⟨by simp, hI, ?_, by simp, fun _ r hr => (by cases hr), fun _ _ => List.Pairwise.nil⟩
      intro i r hr
      exact ⟨_, hok r (List.mem_of_getElem? hr), by simp [AggDenorm.effs]⟩
    have h := chain_inv (P := fun t op => (∀ r, op ≠ .ins r) ∧ ∀ db', AggLegal a S db' (op.stmt t)) (fs := fs)
      (aggInv_nested hC (.insert t []) [])
      (fun {t' op W db} ha hP h => aggInv_removal hC (hP.2 db) hP.1 ha h)
      (fun f hff o db op ho => by
        rcases mem_refOps ho with ⟨_, rfl⟩ | ⟨ha, i, rfl⟩
        · exact ⟨by simp, fun _ => trivial⟩
        · obtain ⟨h1, h2⟩ := hf f hff ha
          refine ⟨by simp, fun _ => ⟨fun x r hr c hc => ?_, fun ht x r => ?_⟩⟩
          · have hne : c ≠ f.col := fun e => h1 (e ▸ hc)
            simp only [Row.set_away hne]
            exact hr c hc
          · exact ⟨Row.set_away (h2 ht).1.symm, Row.set_away (h2 ht).2.symm⟩)
      fuel _ _ _ he (fun td htd => todoOk_todos (fun op ho => by rw [mem_deleteOps ho]; exact ⟨by simp, fun _ => trivial⟩) htd)
      (by rw [items_rows]; exact hz)
    refine ⟨fun r hr => ?_, h.ints⟩
    obtain ⟨i, hi⟩ := List.mem_iff_getElem?.1 hr
    obtain ⟨v, h1, h2⟩ := h.sums i r hi
    rw [h1, ← h2]
    simp [AggDenorm.effs]

end

/-! ## Tables that no such foreign key refers to -/

/-- The same work for the engine without foreign keys. -/
def Todo.plain (E : Engine) : Todo → List Item
  | .rows t ops => [.write .top t ops]
  | .refer _ _ => []
  | .fire ch => E.fired .top ch

theorem chain_plain {E : Engine} {fs : List ForeignRef} {t : TableName} (hf : ∀ f ∈ fs, f.target ≠ t) {fuel : Nat} :
    ∀ (n : Nat) (T : List Todo) (db db' : Db), E.chain fs fuel n T db = .ok db' →
    (∀ td ∈ T, (∃ ops, td = .rows t ops) ∨ ∃ ch, td = .fire ch) → ∃ m, E.drain m (T.flatMap (Todo.plain E)) db = .ok db'
  | _, [], db, db', he, _ => by
    simp only [Engine.chain, Except.ok.injEq] at he
    exact ⟨0, by simp [Engine.drain, he]⟩
  | 0, _ :: _, _, _, he, _ => by simp [Engine.chain] at he
  | n + 1, .rows t' ops :: T, db, db', he, hT => by
    obtain rfl : t' = t := by
      rcases hT _ (List.mem_cons_self ..) with ⟨_, h⟩ | ⟨_, h⟩ <;> cases h
      rfl
    rw [Engine.chain] at he
    have hfl : ∀ chs : List Change, (∀ ch ∈ chs, ch.table = t') → chs.flatMap (follow fs) = chs.map .fire := by
      intro chs hc
      induction chs with
      | nil => rfl
      | cons ch chs ih =>
        rw [List.flatMap_cons, ih fun c h => hc c (List.mem_cons_of_mem _ h)]
        have : fs.filter (fun f => decide (f.target = ch.table)) = [] := by
          rw [List.filter_eq_nil_iff]
          intro f hff
          simpa [hc ch (List.mem_cons_self ..)] using hf f hff
        simp [follow, this]
    rw [hfl _ fun ch hc => applyOps_table hc] at he
    obtain ⟨m, hm⟩ := chain_plain hf n _ _ _ he (by
      intro td htd
      rcases List.mem_append.1 htd with htd | htd
      · obtain ⟨ch, _, rfl⟩ := List.mem_map.1 htd
        exact .inr ⟨ch, rfl⟩
      · exact hT td (List.mem_cons_of_mem _ htd))
    refine ⟨m + 1, ?_⟩
    rw [List.flatMap_append, List.flatMap_map] at hm
    simpa [Todo.plain, Engine.drain, Engine.step] using hm
  | n + 1, .refer f o :: T, db, db', he, hT => by
    rcases hT _ (List.mem_cons_self ..) with ⟨_, h⟩ | ⟨_, h⟩ <;> cases h
  | n + 1, .fire ch :: T, db, db', he, hT => by
    rw [Engine.chain] at he
    cases hd : E.drain fuel (E.fired .top ch) db with
    | error e => rw [hd] at he; cases he
    | ok db1 =>
      rw [hd] at he
      obtain ⟨m, hm⟩ := chain_plain hf n _ _ _ he (fun td htd => hT td (List.mem_cons_of_mem _ htd))
      exact ⟨fuel + m, by simpa [Todo.plain] using drain_append hd hm⟩

theorem sweep_plain {fs : List ForeignRef} {t : TableName} (hf : ∀ f ∈ fs, f.target ≠ t) (n : Nat) (o : Row) (db : Db) :
    Db.sweep fs n t o db = db := by
  cases n with
  | zero => rfl
  | succ n =>
    have : fs.filter (fun f => decide (f.target = t)) = [] := by
      rw [List.filter_eq_nil_iff]
      intro f hff
      simpa using hf f hff
    rw [Db.sweep, this]
    rfl

theorem sweepRows_plain {E : Engine} {fs : List ForeignRef} {t : TableName} (hf : ∀ f ∈ fs, f.target ≠ t) {fuel : Nat} :
    ∀ (ops : List RowOp) (db db' : Db), E.sweepRows fs fuel t ops db = .ok db' → ∃ m, E.drain m (ops.map fun op => .write .top t [op]) db = .ok db'
  | [], db, db', he => by
    simp only [Engine.sweepRows, Except.ok.injEq] at he
    exact ⟨0, by simp [Engine.drain, he]⟩
  | op :: ops, db, db', he => by
    have hs : ∀ chs : List Change, chs.foldl (fun db ch => Db.sweep fs 15 t ch.old db) (applyOp E t op db).1 = (applyOp E t op db).1 := by
      intro chs
      induction chs with
      | nil => rfl
      | cons ch chs ih => rw [List.foldl_cons, sweep_plain hf, ih]
    rw [Engine.sweepRows, hs] at he
    cases hd : E.drain fuel ((applyOp E t op db).2.flatMap (E.fired .top)) (applyOp E t op db).1 with
    | error e => rw [hd] at he; cases he
    | ok db1 =>
      rw [hd] at he
      obtain ⟨m, hm⟩ := sweepRows_plain hf ops db1 db' he
      refine ⟨fuel + m + 1, ?_⟩
      simpa [Engine.drain, Engine.step, applyOps] using drain_append hd hm

theorem execRefs_plain {E : Engine} {fs : List ForeignRef} {fuel : Nat} {s : Stmt} (hf : ∀ f ∈ fs, f.target ≠ s.table) {db db' : Db}
    (he : E.execRefs fs fuel s db = .ok db') : ∃ n, E.exec n s db = .ok db' := by
  cases s with
  | insert t rs => exact ⟨fuel, he⟩
  | update t w σ => exact ⟨fuel, he⟩
  | delete t w =>
    by_cases hb : E.backend = .mysql
    · have h1 : E.execRefs fs fuel (.delete t w) db = E.sweepRows fs fuel t ((Stmt.delete t w).ops db) db := by
        rw [Engine.execRefs, hb]
      rw [h1] at he
      obtain ⟨m, hm⟩ := sweepRows_plain hf _ _ _ he
      exact ⟨m, by simpa [Engine.exec, Engine.start, hb, writes] using hm⟩
    · rw [Engine.execRefs_delete hb] at he
      obtain ⟨m, hm⟩ := chain_plain hf _ _ _ _ he (by
        intro td htd
        cases hb' : E.backend <;> rw [hb'] at htd <;> simp only [todos, List.mem_map, List.mem_singleton] at htd
        · obtain ⟨op, _, rfl⟩ := htd; exact .inl ⟨_, rfl⟩
        · obtain ⟨op, _, rfl⟩ := htd; exact .inl ⟨_, rfl⟩
        · exact .inl ⟨_, htd⟩)
      refine ⟨m, ?_⟩
      have : (todos E.backend t ((Stmt.delete t w).ops db)).flatMap (Todo.plain E) = E.start (.delete t w) db := by
        rw [Engine.start]
        have hl : ∀ l : List RowOp, (l.map fun op => Todo.rows t [op]).flatMap (Todo.plain E) = l.map fun op => .write .top t [op] := by
          intro l
          induction l with
          | nil => rfl
          | cons op l ih => rw [List.map_cons, List.flatMap_cons, ih]; rfl
        cases E.backend with
        | sqlite => exact hl _
        | mysql => exact hl _
        | postgresql => simp [todos, writes, Todo.plain, Stmt.table]
      rw [this] at hm
      exact hm

end Denorm
