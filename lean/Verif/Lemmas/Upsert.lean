import Verif.Spec.Upsert
import Verif.Lemmas.AggInv
import Verif.Lemmas.FlushRun
/-!
# Statements that write rows in different ways
-/
namespace Denorm

theorem PhaseInv.drain {E : Engine} {t : TableName} {I : List RowOp → List Item → Db → Prop} (h : PhaseInv E t I) {fuel : Nat}
    {ops : List RowOp} {db db' : Db} (hI : I ops [] db) (he : E.drain fuel (writes E.backend .top t ops) db = .ok db') : I [] [] db' := by
  have hr := Engine.reach_of_drain _ _ _ _ he
  by_cases hb : E.backend = .postgresql
  · rw [hb] at hr
    simp only [writes] at hr
    generalize hW : [Item.write Frame.top t ops] = W at hr
    generalize hV : ([] : List Item) = V at hr
    cases hr with
    | refl => exact absurd (hW.trans hV.symm) (by simp)
    | @step it W new _ db1 _ _ hs hr =>
      subst hV
      simp only [List.cons.injEq] at hW
      obtain ⟨rfl, rfl⟩ := hW
      simp only [Engine.step, Except.ok.injEq, Prod.mk.injEq] at hs
      obtain ⟨rfl, rfl⟩ := hs
      have h1 := h.writeAll (ops := ops) (rest := []) (W := []) (by simp) (by simpa using hI)
      exact (h.nested []).reach hr h1
  · have : writes E.backend .top t ops = ops.map fun op => .write .top t [op] := by
      cases hb' : E.backend <;> simp_all [writes]
    rw [this] at hr
    obtain ⟨rest, V, h1, h2⟩ := h.oneByOne hI hr
    obtain ⟨rfl, rfl⟩ := h2 rfl
    exact h1

theorem mem_insertedRows {ops : List RowOp} {r : Row} : r ∈ insertedRows ops ↔ .ins r ∈ ops := by
  simp only [insertedRows, List.mem_filterMap]
  constructor
  · rintro ⟨op, h1, h2⟩
    cases op <;> simp at h2
    subst h2; exact h1
  · exact fun h => ⟨_, h, rfl⟩

/-- The plain statement a single row write belongs to. -/
def RowOp.stmt (t : TableName) : RowOp → Stmt
  | .ins r => .insert t [r]
  | .upd _ σ => .update t (fun _ => true) σ
  | .del w => .delete t w

theorem RowOp.stmt_table (t : TableName) (op : RowOp) : (op.stmt t).table = t := by cases op <;> rfl

theorem RowOp.stmt_top (t : TableName) (op : RowOp) : TopOp (op.stmt t) op := by
  cases op with
  | ins r => exact ⟨r, by simp, rfl⟩
  | upd i σ => exact ⟨i, rfl⟩
  | del w => exact rfl

/-! ## Marking -/

section
variable {E : Engine} {cb : Callback} {rank : String → Nat} {C : Db → Row → Prop}

theorem itemOk_act {s s' : Stmt} {it : Item} (ha : it.isAct) (h : ItemOk E rank s it) : ItemOk E rank s' it := by
  cases it with
  | write => exact absurd ha (by simp [Item.isAct])
  | act => exact h

theorem TrackInv.swap {s s' : Stmt} {W : List Item} {db : Db} (h : TrackInv E cb rank s C W db) (ha : ∀ it ∈ W, it.isAct)
    (hL : LegalStmt E cb db s') : TrackInv E cb rank s' C W db :=
  ⟨hL, h.keys, fun it hit => itemOk_act (ha it hit) (h.items it hit), h.good⟩

theorem unlinked_apply (hT : Ground E cb) {t : TableName} {op : RowOp} {db : Db} {d : DepRead} (hd : d ∈ cb.deps)
    (hdt : d.dep.other.table = t) {o : Row} (hu : Unlinked d.dep db o) : Unlinked d.dep (applyOp E t op db).1 o := by
  intro tbl c k hm l hl
  have : tbl ≠ t := hdt ▸ hT.through d hd _ _ _ hm
  rw [applyOp_rows_other E op db this] at hl
  exact hu _ _ _ hm l hl

/-- One row written by the statement. -/
theorem trackInv_top (hT : Tracks E cb) (hR : Ranked E rank) (hC : TrackedProp cb C) {t : TableName} {rs : List Row} {op : RowOp}
    {W : List Item} {db : Db} (ha : ∀ it ∈ W, it.isAct) (h : TrackInv E cb rank (.insert t rs) C W db)
    (hL : LegalStmt E cb db (op.stmt t)) :
    TrackInv E cb rank (.insert t rs) C ((applyOp E t op db).2.flatMap (E.fired .top) ++ W) (applyOp E t op db).1 := by
  have hinv := trackInv E cb hT rank hR (op.stmt t) C hC
  have h0 := h.swap ha hL
  have h1 : TrackInv E cb rank (op.stmt t) C (.write .top t [op] :: W) db := by
    refine ⟨hL, h0.keys, ?_, fun r hr => ?_⟩
    · intro it hit
      rcases List.mem_cons.1 hit with rfl | hit
      · exact .inl ⟨(op.stmt_table t).symm, rfl, by simpa using op.stmt_top t⟩
      · exact h0.items it hit
    · exact (h0.good r hr).imp id (Or.imp (fun ⟨it, h2, h3⟩ => ⟨it, List.mem_cons_of_mem _ h2, h3⟩) id)
  have h2 := hinv.writeNil (hinv.writeOp h1)
  refine h2.swap ?_ ?_
  · intro it hit
    rcases List.mem_append.1 hit with hit | hit
    · exact isAct_fired hit
    · exact ha it hit
  · exact fun r hr => ⟨(h.legal r hr).1, fun d hd hdt => unlinked_apply hT.toGround hd hdt ((h.legal r hr).2 d hd hdt)⟩

/-- A row write that is legal whenever the rows `rs` may be inserted. -/
def LegalOp (cb : Callback) (t : TableName) (rs : List Row) : RowOp → Prop
  | .ins r => r ∈ rs
  | .upd _ σ => ∀ p ∈ cb.pks, p.1 = t → ∀ x r, σ x r p.2 = r p.2
  | .del _ => ∀ d ∈ cb.deps, d.dep.other.table = t → d.dep.m2mTable = none

theorem LegalOp.stmt {t : TableName} {rs : List Row} {op : RowOp} {db : Db} (h : LegalOp cb t rs op)
    (hL : LegalStmt E cb db (.insert t rs)) : LegalStmt E cb db (op.stmt t) := by
  cases op with
  | ins r =>
    intro r' hr'
    simp only [List.mem_singleton] at hr'
    exact hr' ▸ hL r h
  | upd i σ => exact h
  | del w => exact fun d hd hdt hm => absurd (h d hd hdt) hm

theorem trackInv_phase (hT : Tracks E cb) (hR : Ranked E rank) (hC : TrackedProp cb C) (t : TableName) (rs : List Row) :
    PhaseInv E t fun ops W db => TrackInv E cb rank (.insert t rs) C W db ∧ ∀ op ∈ ops, LegalOp cb t rs op where
  nested _ :=
    have hinv := trackInv E cb hT rank hR (.insert t rs) C hC
    { perm := fun hp h => ⟨hinv.perm hp h.1, h.2⟩
      writeNil := fun h => ⟨hinv.writeNil h.1, h.2⟩
      writeOp := fun h => ⟨hinv.writeOp h.1, h.2⟩
      markValues := fun h => ⟨hinv.markValues h.1, h.2⟩
      markSelect := fun h => ⟨hinv.markSelect h.1, h.2⟩
      update := fun hb h => ⟨hinv.update hb h.1, h.2⟩ }
  top := fun ha h => ⟨trackInv_top hT hR hC ha h.1 ((h.2 _ (List.mem_cons_self ..)).stmt h.1.legal),
    fun op ho => h.2 op (List.mem_cons_of_mem _ ho)⟩

theorem track_ops (hT : Tracks E cb) (hN : NoReentry E) (hC : TrackedProp cb C) {fuel : Nat} {t : TableName} {rs : List Row}
    {ops : List RowOp} {db db' : Db} (he : E.drain fuel (writes E.backend .top t ops) db = .ok db')
    (hL : LegalStmt E cb db (.insert t rs)) (ho : ∀ op ∈ ops, LegalOp cb t rs op) (hK : KeysOk cb db)
    (hg : ∀ r ∈ db.rows cb.model.table, Marked cb.model db r ∨ C db r) :
    KeysOk cb db' ∧ ∀ r ∈ db'.rows cb.model.table, Marked cb.model db' r ∨ C db' r := by
  obtain ⟨rank, hR⟩ := hN.ranked
  have := ((trackInv_phase hT hR hC t rs).drain ⟨⟨hL, hK, by simp, fun r hr => (hg r hr).imp id .inr⟩, ho⟩ he).1
  refine ⟨this.keys, fun r hr => ?_⟩
  rcases this.good r hr with h1 | ⟨it, h2, _⟩ | h4
  · exact .inl h1
  · simp at h2
  · exact .inr h4

end

/-- What an upsert writes: rows it inserts, and rows it updates with one of the rows it was given. -/
theorem mem_upsertOps {us : List (List Col)} {oc : OnConflict} {op : RowOp} : ∀ {rs cur : List Row}, op ∈ upsertOps us oc rs cur →
    (∃ r ∈ rs, op = .ins r) ∨ ∃ σ, oc = .doUpdate σ ∧ ∃ r ∈ rs, ∃ i, op = .upd i fun _ x => σ r x
  | [], _, h => by simp [upsertOps] at h
  | r :: rs, cur, h => by
    have up : ∀ {cur'}, op ∈ upsertOps us oc rs cur' →
        (∃ r' ∈ r :: rs, op = .ins r') ∨ ∃ σ, oc = .doUpdate σ ∧ ∃ r' ∈ r :: rs, ∃ i, op = .upd i fun _ x => σ r' x := by
      intro cur' h'
      rcases mem_upsertOps h' with ⟨r', h1, h2⟩ | ⟨σ, h1, r', h2, h3⟩
      · exact .inl ⟨r', List.mem_cons_of_mem _ h1, h2⟩
      · exact .inr ⟨σ, h1, r', List.mem_cons_of_mem _ h2, h3⟩
    unfold upsertOps at h
    cases hh : (targetsOf cur (clashes us r)).head? with
    | none =>
      rw [hh] at h
      rcases List.mem_cons.1 h with rfl | h
      · exact .inl ⟨r, List.mem_cons_self .., rfl⟩
      · exact up h
    | some i =>
      rw [hh] at h
      cases oc with
      | doNothing => exact up h
      | doUpdate σ =>
        rcases List.mem_cons.1 h with rfl | h
        · exact .inr ⟨σ, rfl, r, List.mem_cons_self .., i, rfl⟩
        · exact up h

/-- What a `REPLACE` writes. -/
theorem mem_replaceOps {us : List (List Col)} {op : RowOp} : ∀ {rs cur : List Row}, op ∈ replaceOps us rs cur →
    (∃ r ∈ rs, op = .ins r) ∨ ∃ w, op = .del w
  | [], _, h => by simp [replaceOps] at h
  | r :: rs, cur, h => by
    rw [replaceOps] at h
    rcases List.mem_append.1 h with h | h
    · obtain ⟨_, _, rfl⟩ := List.mem_map.1 h
      exact .inr ⟨_, rfl⟩
    · rcases List.mem_cons.1 h with rfl | h
      · exact .inl ⟨r, List.mem_cons_self .., rfl⟩
      · rcases mem_replaceOps h with ⟨r', h1, h2⟩ | h
        · exact .inl ⟨r', List.mem_cons_of_mem _ h1, h2⟩
        · exact .inr h

theorem Engine.replace_loud {E : Engine} (hb : E.backend ≠ .sqlite) {fuel : Nat} {t : TableName} {us : List (List Col)} {rs : List Row}
    {db : Db} : E.replace fuel t us rs db = E.drain fuel (writes E.backend .top t (replaceOps us rs (db.rows t))) db := by
  rw [Engine.replace]
  cases h : E.backend with
  | sqlite => exact absurd h hb
  | mysql => rfl
  | postgresql => rfl

/-- One write of a history. -/
theorem track_write {E : Engine} {cb : Callback} (hT : Tracks E cb) (hN : NoReentry E) {C : Db → Row → Prop} (hC : TrackedProp cb C)
    {fuel : Nat} {w : DbWrite} {db db' : Db} (he : E.write fuel db w = .ok db') (hL : LegalWrite E cb db w) (hK : KeysOk cb db)
    (hg : ∀ r ∈ db.rows cb.model.table, Marked cb.model db r ∨ C db r) :
    KeysOk cb db' ∧ ∀ r ∈ db'.rows cb.model.table, Marked cb.model db' r ∨ C db' r := by
  cases w with
  | stmt s => exact track_exec hT hN hC he hL.1 hK hg
  | upsert t us oc rs =>
    refine track_ops hT hN hC he hL.1.1 (fun op ho => ?_) hK hg
    rcases mem_upsertOps ho with ⟨r, _, rfl⟩ | ⟨σ, h1, r, h2, i, rfl⟩
    · exact mem_insertedRows.2 ho
    · exact hL.1.2 σ h1 r h2
  | replace t us rs =>
    obtain ⟨hb, hm⟩ := hL.2 t us rs rfl
    rw [Engine.write, Engine.replace_loud hb] at he
    refine track_ops hT hN hC he hL.1 (fun op ho => ?_) hK hg
    rcases mem_replaceOps ho with ⟨r, h1, rfl⟩ | ⟨w, rfl⟩
    · exact h1
    · exact hm

theorem track_writes {E : Engine} {cb : Callback} (hT : Tracks E cb) (hN : NoReentry E) {C : Db → Row → Prop} (hC : TrackedProp cb C)
    {fuel : Nat} : ∀ (ws : List DbWrite) (db : Db), LegalWrites E cb fuel ws db → KeysOk cb db →
    (∀ r ∈ db.rows cb.model.table, Marked cb.model db r ∨ C db r) →
    KeysOk cb (E.writeAll fuel ws db) ∧
      ∀ r ∈ (E.writeAll fuel ws db).rows cb.model.table, Marked cb.model (E.writeAll fuel ws db) r ∨ C (E.writeAll fuel ws db) r
  | [], db, _, hK, hg => ⟨hK, hg⟩
  | w :: ws, db, hL, hK, hg => by
    obtain ⟨hL1, hL2⟩ := hL
    simp only [Engine.writeAll]
    cases he : E.write fuel db w with
    | ok db' =>
      rw [he] at hL2
      obtain ⟨h1, h2⟩ := track_write hT hN hC he hL1 hK hg
      exact track_writes hT hN hC ws db' hL2 h1 h2
    | error e =>
      rw [he] at hL2
      exact track_writes hT hN hC ws db hL2 hK hg

/-! ## Aggregates -/

section
variable {E : Engine} {D : List Denorm} {a : AggDenorm} {S : List (TableName × Col)} {rank : String → Nat}

theorem AggInv.swap {s s' : Stmt} {ops : List RowOp} {op : RowOp} {W : List Item} {db : Db} (h : AggInv E a S rank s ops W db)
    (ht : TopOp s' op) (hop : ∀ r, op ≠ .ins r) : AggInv E a S rank s' [op] W db :=
  ⟨h.items, h.ints, h.sums, by simpa using ht, fun _ r hr => absurd (List.mem_singleton.1 hr).symm (hop r), fun _ _ => by simp⟩

/-- A row write of the statement that inserts nothing. -/
theorem aggInv_other (hC : AggCtx E D a S rank) {t : TableName} {rs : List Row} {op : RowOp} {ops : List RowOp} {W : List Item} {db : Db}
    (ht : t = a.model.table → t ≠ a.related.table) (hL : AggLegal a S db (op.stmt t)) (hop : ∀ r, op ≠ .ins r) (hW : ∀ it ∈ W, it.isAct)
    (h : AggInv E a S rank (.insert t rs) ops W db) :
    AggInv E a S rank (.insert t rs) ops ((applyOp E t op db).2.flatMap (E.fired .top) ++ W) (applyOp E t op db).1 := by
  have h1 := aggInv_top hC hL hW (h.swap (op.stmt_top t) hop)
  rw [op.stmt_table t] at h1
  refine ⟨h1.items, h1.ints, h1.sums, h.tops, ?_, fun e1 e2 => absurd e2 (ht e1)⟩
  intro e r hr
  obtain ⟨k1, k2, k3⟩ := h.fresh e r hr
  have hne : a.related.table ≠ t := fun e2 => ht e e2.symm
  refine ⟨k1, ?_, ?_⟩
  · intro o ho
    rw [applyOp_rows_other E _ _ hne] at ho
    exact k2 o ho
  · intro fr ch x hx
    rcases List.mem_append.1 hx with hx | hx
    · obtain ⟨ch', hc, hx⟩ := List.mem_flatMap.1 hx
      obtain ⟨y, _, hchs, _⟩ := applyOp_effect E t op db
      refine fired_unref hC.inst hC.decl ?_ hx
      intro htab
      rw [hchs] at hc
      rcases y with _ | ⟨e', o, n⟩
      · simp [effectChange] at hc
      · simp only [effectChange, List.mem_singleton] at hc
        subst hc
        exact absurd htab.symm hne
    · exact k3 fr ch x hx

/-- The row writes among `ops` that insert. -/
def insertsOf (ops : List RowOp) : List RowOp := (insertedRows ops).map .ins

theorem aggInv_ops_phase (hC : AggCtx E D a S rank) {t : TableName} {rs : List Row} {db0 : Db} (ht : t = a.model.table → t ≠ a.related.table)
    (hL : AggLegal a S db0 (.insert t rs)) :
    PhaseInv E t fun ops W db => AggInv E a S rank (.insert t rs) (insertsOf ops) W db ∧
      ∀ op ∈ ops, (∀ r, op ≠ .ins r) → ∀ db', AggLegal a S db' (op.stmt t) where
  nested ops :=
    have hinv := aggInv_nested hC (.insert t rs) (insertsOf ops)
    { perm := fun hp h => ⟨hinv.perm hp h.1, h.2⟩
      writeNil := fun h => ⟨hinv.writeNil h.1, h.2⟩
      writeOp := fun h => ⟨hinv.writeOp h.1, h.2⟩
      markValues := fun h => ⟨hinv.markValues h.1, h.2⟩
      markSelect := fun h => ⟨hinv.markSelect h.1, h.2⟩
      update := fun hb h => ⟨hinv.update hb h.1, h.2⟩ }
  top := by
    intro op ops W db ha h
    refine ⟨?_, fun op ho => h.2 op (List.mem_cons_of_mem _ ho)⟩
    cases op with
    | ins r => exact aggInv_top hC hL ha h.1
    | upd i σ => exact aggInv_other hC ht (h.2 _ (List.mem_cons_self ..) (by simp) db) (by simp) ha h.1
    | del w => exact aggInv_other hC ht (h.2 _ (List.mem_cons_self ..) (by simp) db) (by simp) ha h.1

theorem agg_ops (hE : Installed E D) (hD : AggDeclared E.backend D a) (hN : NoReentry E) (hS : IntClosed E.backend D S)
    (hm : (a.model.table, a.fieldname) ∈ S) {fuel : Nat} {t : TableName} {ops : List RowOp} {db db' : Db}
    (ht : t = a.model.table → t ≠ a.related.table) (hL : AggLegal a S db (.insert t (insertedRows ops)))
    (ho : ∀ op ∈ ops, (∀ r, op ≠ .ins r) → ∀ db', AggLegal a S db' (op.stmt t))
    (hI : ∀ t, ∀ r ∈ db.rows t, IntRow S t r) (hok : AggOk a db)
    (he : E.drain fuel (writes E.backend .top t ops) db = .ok db') : AggOk a db' ∧ ∀ t, ∀ r ∈ db'.rows t, IntRow S t r := by
  obtain ⟨rank, hR⟩ := hN.ranked
  have hC : AggCtx E D a S rank := ⟨hE, hD, hR, hS, hm⟩
  have h := ((aggInv_ops_phase hC ht hL).drain ⟨aggInv_start hL hI hok, ho⟩ he).1
  refine ⟨fun r hr => ?_, h.ints⟩
  obtain ⟨i, hi⟩ := List.mem_iff_getElem?.1 hr
  obtain ⟨v, h1, h2⟩ := h.sums i r hi
  rw [h1, ← h2]
  simp [AggDenorm.effs]

theorem insertedRows_append (l l' : List RowOp) : insertedRows (l ++ l') = insertedRows l ++ insertedRows l' := by
  simp [insertedRows]

theorem insertedRows_replace {us : List (List Col)} : ∀ {rs cur : List Row}, insertedRows (replaceOps us rs cur) = rs
  | [], _ => rfl
  | r :: rs, cur => by
    have : ∀ (l : List Nat) (w : Row → Bool), insertedRows (l.map fun _ => .del w) = [] := by
      intro l w
      induction l with
      | nil => rfl
      | cons _ _ ih => simp [insertedRows]
    rw [replaceOps, insertedRows_append, this]
    show r :: insertedRows (replaceOps us rs _) = r :: rs
    rw [insertedRows_replace]

/-- One write of a history. -/
theorem agg_write (hE : Installed E D) (hD : AggDeclared E.backend D a) (hN : NoReentry E) (hS : IntClosed E.backend D S)
    (hm : (a.model.table, a.fieldname) ∈ S) {fuel : Nat} {w : DbWrite} {db db' : Db} (hP : w.Parts (AggLegal a S db) db)
    (hw : w.Simple E a) (hI : ∀ t, ∀ r ∈ db.rows t, IntRow S t r) (hok : AggOk a db) (he : E.write fuel db w = .ok db') :
    AggOk a db' ∧ ∀ t, ∀ r ∈ db'.rows t, IntRow S t r := by
  cases w with
  | stmt s => exact agg_exec hE hD hN hS hm hP hI hok he
  | upsert t us oc rs =>
    refine agg_ops hE hD hN hS hm hw hP.1 (fun op ho hi db' => ?_) hI hok he
    rcases mem_upsertOps ho with ⟨r, _, rfl⟩ | ⟨σ, h1, r, h2, i, rfl⟩
    · exact absurd rfl (hi r)
    · exact hP.2 σ h1 r h2
  | replace t us rs =>
    rw [Engine.write, Engine.replace_loud hw.1] at he
    refine agg_ops hE hD hN hS hm hw.2 (by rw [insertedRows_replace]; exact hP) (fun op ho hi db' => ?_) hI hok he
    rcases mem_replaceOps ho with ⟨r, _, rfl⟩ | ⟨w, rfl⟩
    · exact absurd rfl (hi r)
    · trivial

end

/-! ## Histories whose writes are legal on every database -/

theorem legalWrites_of {E : Engine} {cb : Callback} {fuel : Nat} : ∀ {ws : List DbWrite}, (∀ w ∈ ws, ∀ db, LegalWrite E cb db w) →
    ∀ db, LegalWrites E cb fuel ws db
  | [], _, _ => trivial
  | w :: ws, h, db => by
    refine ⟨h w (List.mem_cons_self ..) db, ?_⟩
    cases E.write fuel db w with
    | ok db' => exact legalWrites_of (fun w hw => h w (List.mem_cons_of_mem _ hw)) db'
    | error e => exact legalWrites_of (fun w hw => h w (List.mem_cons_of_mem _ hw)) db

theorem countWrites_of {E : Engine} {a : AggDenorm} {fuel : Nat} : ∀ {ws : List DbWrite},
    (∀ w ∈ ws, ∀ db, w.Parts (CountLegal a db) db ∧ w.Simple E a) → ∀ db, CountWrites E a fuel ws db
  | [], _, _ => trivial
  | w :: ws, h, db => by
    refine ⟨h w (List.mem_cons_self ..) db, ?_⟩
    cases E.write fuel db w with
    | ok db' => exact countWrites_of (fun w hw => h w (List.mem_cons_of_mem _ hw)) db'
    | error e => exact countWrites_of (fun w hw => h w (List.mem_cons_of_mem _ hw)) db

theorem sumWrites_of {E : Engine} {a : AggDenorm} {S : List (TableName × Col)} {fuel : Nat} : ∀ {ws : List DbWrite},
    (∀ w ∈ ws, ∀ db, w.Parts (AggLegal a S db) db ∧ w.Simple E a) → ∀ db, SumWrites E a S fuel ws db
  | [], _, _ => trivial
  | w :: ws, h, db => by
    refine ⟨h w (List.mem_cons_self ..) db, ?_⟩
    cases E.write fuel db w with
    | ok db' => exact sumWrites_of (fun w hw => h w (List.mem_cons_of_mem _ hw)) db'
    | error e => exact sumWrites_of (fun w hw => h w (List.mem_cons_of_mem _ hw)) db

end Denorm
