import Verif.Spec.Transparent
import Verif.Spec.Acyclic
import Verif.Lemmas.Confined
import Verif.Lemmas.Declared
import Verif.Lemmas.KeyInv
/-!
# Triggers leave ordinary data alone
-/
namespace Denorm

/-- One row written in a database without triggers. -/
def plainOp (op : RowOp) (rows : List Row) : List Row :=
  match op with
  | .ins r => rows ++ [r]
  | .upd i σ =>
    match rows[i]? with
    | none => rows
    | some old => rows.set i (σ 0 old)
  | .del w => rows.eraseP w

def plainOps (ops : List RowOp) (rows : List Row) : List Row := ops.foldl (fun rows op => plainOp op rows) rows

def RowOp.Blind (K : Col → Prop) : RowOp → Prop
  | .ins _ => True
  | .upd _ σ => ∀ x x' r r', Row.Agrees K r r' → Row.Agrees K (σ x r) (σ x' r')
  | .del w => ∀ r r', Row.Agrees K r r' → w r = w r'

theorem Row.Agrees.refl {K : Col → Prop} (r : Row) : Row.Agrees K r r := fun _ _ => rfl

theorem Pw.append {R : Row → Row → Prop} {l1 l2 m1 m2 : List Row} (h1 : Pw R l1 m1) (h2 : Pw R l2 m2) : Pw R (l1 ++ l2) (m1 ++ m2) := by
  induction h1 with
  | nil => exact h2
  | cons hr _ ih => exact .cons hr ih

theorem Pw.get2 {R : Row → Row → Prop} {l m : List Row} (h : Pw R l m) (i : Nat) :
    (l[i]? = none ∧ m[i]? = none) ∨ ∃ a b, l[i]? = some a ∧ m[i]? = some b ∧ R a b := by
  induction h generalizing i with
  | nil => exact .inl ⟨rfl, rfl⟩
  | cons hr _ ih =>
    cases i with
    | zero => exact .inr ⟨_, _, rfl, rfl, hr⟩
    | succ i => simpa using ih i

theorem Pw.set2 {R : Row → Row → Prop} {l m : List Row} (h : Pw R l m) {a b : Row} (hab : R a b) (i : Nat) : Pw R (l.set i a) (m.set i b) := by
  induction h generalizing i with
  | nil => exact .nil
  | cons hr ht ih =>
    cases i with
    | zero => exact .cons hab ht
    | succ i => exact .cons hr (ih i)

theorem Pw.eraseP {R : Row → Row → Prop} {l m : List Row} (h : Pw R l m) {w : Row → Bool} (hw : ∀ a b, R a b → w a = w b) :
    Pw R (l.eraseP w) (m.eraseP w) := by
  induction h with
  | nil => exact .nil
  | cons hr ht ih =>
    rename_i a b l m
    rw [List.eraseP_cons, List.eraseP_cons, hw a b hr]
    cases w b with
    | true => exact ht
    | false => exact .cons hr ih

section
variable {E : Engine} {K : TableName → Col → Prop}

/-- What the engine does to the rows of the table, modulo `K`. -/
theorem applyOp_plain {t : TableName} {op : RowOp} {db : Db} {rows : List Row} (hb : op.Blind (K t)) (h : Pw (Row.Agrees (K t)) rows (db.rows t)) :
    Pw (Row.Agrees (K t)) (plainOp op rows) ((applyOp E t op db).1.rows t) := by
  cases op with
  | ins r =>
    simp only [applyOp, Db.setRows_same, plainOp]
    exact h.append (.cons (Row.Agrees.refl r) .nil)
  | upd i σ =>
    simp only [applyOp, plainOp]
    rcases h.get2 i with ⟨h1, h2⟩ | ⟨a, b, h1, h2, h3⟩
    · rw [h1, h2]; exact h
    · rw [h1, h2]
      simp only [Db.setRows_same]
      exact h.set2 (hb _ _ _ _ h3) i
  | del w =>
    have : (applyOp E t (.del w) db).1.rows t = (db.rows t).eraseP w := by
      simp only [applyOp]
      split
      · next hn => rw [List.eraseP_of_forall_not fun a ha => List.find?_eq_none.1 hn a ha]
      · exact Db.setRows_same ..
    rw [this]
    exact h.eraseP hb

theorem applyOps_plain {t : TableName} : ∀ {ops : List RowOp} {db : Db} {rows : List Row}, (∀ op ∈ ops, op.Blind (K t)) →
    Pw (Row.Agrees (K t)) rows (db.rows t) →
      Pw (Row.Agrees (K t)) (plainOps ops rows) ((applyOps E t ops db).1.rows t) ∧ ∀ t', t' ≠ t → (applyOps E t ops db).1.rows t' = db.rows t'
  | [], db, rows, _, h => ⟨h, fun _ _ => rfl⟩
  | op :: ops, db, rows, hb, h => by
    have h1 := applyOp_plain (E := E) (hb op (List.mem_cons_self ..)) h
    obtain ⟨h2, h3⟩ := applyOps_plain (ops := ops) (fun o ho => hb o (List.mem_cons_of_mem _ ho)) h1
    refine ⟨h2, fun t' ht => ?_⟩
    exact (h3 t' ht).trans (applyOp_rows_other E op db ht)

/-- A statement's own writes. -/
structure UserItem (K : TableName → Col → Prop) (t : TableName) (it : Item) (ops : List RowOp) : Prop where
  eq : ∃ fr, it = .write fr t ops
  blind : ∀ op ∈ ops, op.Blind (K t)

/-- The writes of a statement, one item after the other. -/
inductive UserItems (K : TableName → Col → Prop) (t : TableName) : List Item → List RowOp → Prop where
  | nil : UserItems K t [] []
  | cons {it ops U rest} : UserItem K t it ops → UserItems K t U rest → UserItems K t (it :: U) (ops ++ rest)

theorem within_all_fired (hK : ∀ t c, Managed E t c → K t c) {fr : Frame} {ch : Change} : ∀ it ∈ E.fired fr ch, Within K it := by
  intro it hit
  obtain ⟨tr, htr, _, a, ha, rfl⟩ := mem_fired.1 hit
  cases a with
  | markValues => trivial
  | markSelect => trivial
  | update u => exact hK _ _ ⟨tr, htr, u, ha, rfl, rfl⟩

theorem closed_managed (hK : ∀ t c, Managed E t c → K t c) : Closed E K :=
  fun _ _ _ tr htr _ _ _ u hu => hK _ _ ⟨tr, htr, u, hu, rfl, rfl⟩

/-- The rows of table `t` with `ops` applied, the others as they are. -/
def putRows (t : TableName) (ops : List RowOp) (rows : TableName → List Row) (t' : TableName) : List Row :=
  if t' = t then plainOps ops (rows t') else rows t'

theorem drain_plain (hK : ∀ t c, Managed E t c → K t c) {t : TableName} : ∀ (n : Nat) {T U : List Item} {ops : List RowOp} {db db' : Db}
    {rows : TableName → List Row}, (∀ it ∈ T, Within K it) → UserItems K t U ops → (∀ t', Pw (Row.Agrees (K t')) (rows t') (db.rows t')) →
    E.drain n (T ++ U) db = .ok db' → ∀ t', Pw (Row.Agrees (K t')) (putRows t ops rows t') (db'.rows t') := by
  intro n
  induction n with
  | zero =>
    intro T U ops db db' rows hT hU hr hd
    cases T with
    | nil =>
      cases hU with
      | nil =>
        simp only [List.append_nil, Engine.drain, Except.ok.injEq] at hd
        subst hd
        intro t'
        simp only [putRows, plainOps, List.foldl_nil, ite_self]
        exact hr t'
      | cons _ _ => simp [Engine.drain] at hd
    | cons it T => simp [Engine.drain] at hd
  | succ n ih =>
    intro T U ops db db' rows hT hU hr hd
    cases T with
    | nil =>
      cases hU with
      | nil =>
        simp only [List.append_nil, Engine.drain, Except.ok.injEq] at hd
        subst hd
        intro t'
        simp only [putRows, plainOps, List.foldl_nil, ite_self]
        exact hr t'
      | @cons it o U rest hit hU =>
        obtain ⟨⟨fr, rfl⟩, hbl⟩ := hit
        simp only [List.nil_append, Engine.drain, Engine.step] at hd
        obtain ⟨h1, h2⟩ := applyOps_plain (E := E) (K := K) hbl (hr t)
        have := ih (rows := putRows t o rows) (ops := rest) (T := (applyOps E t o db).2.flatMap (E.fired fr))
          (fun it hit => by
            obtain ⟨ch, _, hit⟩ := List.mem_flatMap.1 hit
            exact within_all_fired hK it hit) hU
          (fun t' => by
            by_cases ht : t' = t
            · subst ht
              simp only [putRows, if_true]
              exact h1
            · simp only [putRows, if_neg ht]
              rw [h2 t' ht]
              exact hr t') hd
        intro t'
        have h3 := this t'
        by_cases ht : t' = t
        · subst ht
          simp only [putRows, if_true, plainOps, List.foldl_append] at h3 ⊢
          exact h3
        · simp only [putRows, if_neg ht] at h3 ⊢
          exact h3
    | cons it T =>
      simp only [List.cons_append, Engine.drain] at hd
      split at hd
      · next new db1 hs =>
        obtain ⟨h1, h2⟩ := (confinedInv (closed_managed hK) db).step (W := T) hs ⟨SameOutside.refl K db, hT⟩
        rw [← List.append_assoc] at hd
        refine ih h2 hU (fun t' => ?_) hd
        exact (hr t').trans (fun a b c hab hbc col hcol => (hab col hcol).trans (hbc col hcol).symm) (h1 t')
      · simp at hd

theorem userItems_writes {fr : Frame} {t : TableName} {ops : List RowOp} (hb : ∀ op ∈ ops, op.Blind (K t)) (b : Backend) :
    UserItems K t (writes b fr t ops) ops := by
  have hone : UserItems K t [.write fr t ops] (ops ++ []) := .cons ⟨⟨fr, rfl⟩, hb⟩ .nil
  have hmany : UserItems K t (ops.map fun op => .write fr t [op]) ops := by
    clear hone
    induction ops with
    | nil => exact .nil
    | cons op ops ih =>
      exact .cons (ops := [op]) ⟨⟨fr, rfl⟩, fun o ho => hb o (by rw [List.mem_singleton.1 ho]; exact List.mem_cons_self ..)⟩
        (ih fun o ho => hb o (List.mem_cons_of_mem _ ho))
  cases b with
  | sqlite => exact hmany
  | mysql => exact hmany
  | postgresql => simpa [writes] using hone

end

/-! ## The writes of a statement together -/

theorem plainOps_ins : ∀ (rs rows : List Row), plainOps (rs.map .ins) rows = rows ++ rs
  | [], rows => by simp [plainOps]
  | r :: rs, rows => by
    have := plainOps_ins rs (rows ++ [r])
    simp only [plainOps, List.map_cons, List.foldl_cons, plainOp] at this ⊢
    rw [this, List.append_assoc]; rfl

theorem eraseP_all {w : Row → Bool} : ∀ (n : Nat) (rows : List Row), rows.countP w ≤ n →
    plainOps (List.replicate n (.del w)) rows = rows.filter fun r => !w r
  | 0, rows, h => by
    simp only [plainOps, List.replicate_zero, List.foldl_nil]
    refine (List.filter_eq_self.2 fun a ha => ?_).symm
    have := List.countP_eq_zero.1 (Nat.le_zero.1 h) a ha
    simpa using this
  | n + 1, rows, h => by
    simp only [plainOps, List.replicate_succ, List.foldl_cons, plainOp]
    have hc : (rows.eraseP w).countP w ≤ n ∧ (rows.eraseP w).filter (fun r => !w r) = rows.filter fun r => !w r := by
      cases hf : rows.find? w with
      | none =>
        rw [List.eraseP_of_forall_not fun a ha => List.find?_eq_none.1 hf a ha]
        refine ⟨?_, rfl⟩
        rw [List.countP_eq_zero.2 fun a ha => List.find?_eq_none.1 hf a ha]
        exact Nat.zero_le _
      | some a =>
        obtain ⟨l1, l2, e1, e2, e3⟩ := eraseP_split hf
        rw [e2]
        subst e1
        simp only [List.countP_append, List.countP_cons, e3, if_true, List.filter_append, List.filter_cons, Bool.not_true] at h ⊢
        exact ⟨by omega, by simp⟩
    rw [← hc.2]
    exact eraseP_all n _ hc.1

theorem plainOps_length {σ : Int → Row → Row} : ∀ (is : List Nat) (rows : List Row), (plainOps (is.map fun i => .upd i σ) rows).length = rows.length
  | [], rows => rfl
  | i :: is, rows => by
    simp only [plainOps, List.map_cons, List.foldl_cons]
    have h := plainOps_length (σ := σ) is (plainOp (.upd i σ) rows)
    simp only [plainOps] at h
    rw [h]
    simp only [plainOp]
    split <;> simp

theorem plainOps_upd {σ : Int → Row → Row} : ∀ (is : List Nat) (rows : List Row), is.Nodup → ∀ j,
    (plainOps (is.map fun i => .upd i σ) rows)[j]? = if j ∈ is then rows[j]?.map (σ 0) else rows[j]?
  | [], rows, _, j => by simp [plainOps]
  | i :: is, rows, hn, j => by
    have hn' := List.nodup_cons.1 hn
    have h := plainOps_upd (σ := σ) is (plainOp (.upd i σ) rows) hn'.2 j
    simp only [plainOps, List.map_cons, List.foldl_cons] at h ⊢
    rw [h]
    have h1 : (plainOp (.upd i σ) rows)[j]? = if j = i then rows[j]?.map (σ 0) else rows[j]? := by
      cases hi : rows[i]? with
      | none =>
        have : plainOp (.upd i σ) rows = rows := by simp only [plainOp, hi]
        rw [this]
        by_cases e : j = i
        · subst e; simp [hi]
        · simp [e]
      | some old =>
        have : plainOp (.upd i σ) rows = rows.set i (σ 0 old) := by simp only [plainOp, hi]
        rw [this]
        have hlt : i < rows.length := (List.getElem?_eq_some_iff.1 hi).1
        by_cases e : j = i
        · subst e; rw [if_pos rfl, List.getElem?_set_self hlt, hi]; rfl
        · rw [if_neg e, List.getElem?_set_ne (Ne.symm e)]
    rw [h1]
    by_cases e : j = i
    · subst e
      simp [hn'.1]
    · simp [e]

/-- Without triggers the writes of a statement do what the statement says. -/
theorem plain_stmt (s : Stmt) (db : Db) : plainOps (s.ops db) (db.rows s.table) = s.alone db.rows s.table := by
  cases s with
  | insert t rs => simp only [Stmt.ops, Stmt.table, Stmt.alone, if_true]; exact plainOps_ins rs _
  | update t w σ =>
    simp only [Stmt.ops, Stmt.table, Stmt.alone, if_true]
    refine List.ext_getElem? fun j => ?_
    rw [plainOps_upd _ _ (nodup_targetsOf ..), List.getElem?_map]
    cases hj : (db.rows t)[j]? with
    | none => simp
    | some r =>
      simp only [Option.map_some, mem_targetsOf, hj, Option.some.injEq, exists_eq_left']
      by_cases hw : w r = true
      · simp [hw]
      · simp [hw]
  | delete t w =>
    simp only [Stmt.ops, Stmt.table, Stmt.alone, if_true]
    have h1 : (targetsOf (db.rows t) w).map (fun _ => RowOp.del w) = List.replicate ((db.rows t).filter w).length (.del w) := by
      rw [← targetsOf_length, List.map_const']
    rw [h1]
    exact eraseP_all _ _ (by rw [List.countP_eq_length_filter]; exact Nat.le_refl _)

theorem blind_ops {K : Col → Prop} {s : Stmt} (h : s.Blind K) (db : Db) : ∀ op ∈ s.ops db, op.Blind K := by
  intro op hop
  cases s with
  | insert t rs =>
    obtain ⟨r, _, rfl⟩ := List.mem_map.1 hop
    trivial
  | update t w σ =>
    obtain ⟨i, _, rfl⟩ := List.mem_map.1 hop
    exact h
  | delete t w =>
    obtain ⟨i, _, rfl⟩ := List.mem_map.1 hop
    exact h

theorem managed_maintained {E : Engine} {D : List Denorm} (hE : Installed E D) (hthis : ∀ dn ∈ D, ∀ d ∈ dn.deps, d.this = dn.model) {t : TableName}
    {c : Col} (h : Managed E t c) : Maintained D t c := by
  obtain ⟨dn, hdn, hw⟩ := managed_writes hE h
  refine ⟨dn, hdn, ?_⟩
  cases dn with
  | callback => simp [Denorm.writes] at hw
  | cacheKey m f ds =>
    obtain ⟨d, hd, e⟩ := List.mem_map.1 hw
    simp only [Prod.mk.injEq] at e
    exact ⟨by rw [← e.1, hthis _ hdn d hd], e.2, trivial⟩
  | aggregate a =>
    simp only [Denorm.writes, List.mem_singleton, Prod.mk.injEq] at hw
    exact ⟨hw.1.symm, hw.2.symm, trivial⟩

theorem exec_plain {E : Engine} {K : TableName → Col → Prop} (hK : ∀ t c, Managed E t c → K t c) {fuel : Nat} {s : Stmt} {db db' : Db}
    (hb : s.Blind (K s.table)) (h : E.exec fuel s db = .ok db') : ∀ t, Pw (Row.Agrees (K t)) (s.alone db.rows t) (db'.rows t) := by
  intro t
  have := drain_plain hK fuel (T := []) (rows := db.rows) (by simp) (userItems_writes (blind_ops hb db) E.backend)
    (fun t' => Pw.refl (fun r => Row.Agrees.refl r) _) h t
  simp only [putRows] at this
  by_cases ht : t = s.table
  · subst ht
    rw [if_pos rfl, plain_stmt] at this
    exact this
  · rw [if_neg ht] at this
    unfold Stmt.alone
    rwa [if_neg ht]

theorem sameData_of {K : TableName → Col → Prop} {rows rows' : TableName → List Row} (h : ∀ t, Pw (Row.Agrees (K t)) (rows t) (rows' t)) :
    SameData K rows rows' := by
  intro t
  refine ⟨?_, fun i r r' h1 h2 => ?_⟩
  · have : ∀ {R : Row → Row → Prop} {l m : List Row}, Pw R l m → l.length = m.length := by
      intro R l m h
      induction h with
      | nil => rfl
      | cons _ _ ih => simp [ih]
    exact this (h t)
  · rcases (h t).get2 i with ⟨e, _⟩ | ⟨a, b, e1, e2, e3⟩
    · rw [e] at h1; simp at h1
    · rw [h1] at e1; rw [h2] at e2
      cases e1; cases e2
      exact e3

/-- Without triggers: data that agree outside `K` still do after a statement that is blind to `K`. -/
theorem alone_agrees {K : TableName → Col → Prop} {s : Stmt} (hb : s.FullyBlind (K s.table)) {rows rows' : TableName → List Row}
    (h : ∀ t, Pw (Row.Agrees (K t)) (rows t) (rows' t)) (t : TableName) : Pw (Row.Agrees (K t)) (s.alone rows t) (s.alone rows' t) := by
  unfold Stmt.alone
  split
  · next ht =>
    subst ht
    have h0 := h s.table
    cases s with
    | insert t rs => exact h0.append (Pw.refl (fun r => Row.Agrees.refl r) rs)
    | update t w σ =>
      simp only [Stmt.table] at h0 hb ⊢
      obtain ⟨hb1, hb2⟩ := hb
      generalize rows t = l at h0
      generalize rows' t = m at h0
      induction h0 with
      | nil => exact .nil
      | @cons a b _ _ hr _ ih =>
        refine .cons ?_ ih
        have e : w a = w b := hb2 a b hr
        simp only [e]
        split
        · exact hb1 _ _ _ _ hr
        · exact hr
    | delete t w =>
      simp only [Stmt.table] at h0 hb ⊢
      obtain ⟨hb1, _⟩ := hb
      generalize rows t = l at h0
      generalize rows' t = m at h0
      induction h0 with
      | nil => exact .nil
      | @cons a b _ _ hr _ ih =>
        rw [List.filter_cons, List.filter_cons, hb1 a b hr]
        cases w b with
        | true => exact ih
        | false => exact .cons hr ih
  · exact h t

end Denorm
