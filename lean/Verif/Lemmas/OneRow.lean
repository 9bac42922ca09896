import Verif.Lemmas.Waiting
import Verif.Lemmas.Trace
import Verif.Lemmas.Transactions
/-!
# Counters that lead upwards take their locks in order

A statement that writes one row makes triggers write one row in the table above, and so on: the rows written form a path along the foreign keys, and each new row of the
path lies one level further down in the order of locks.
-/
namespace Denorm

/-- `Link t c u`: triggers on table `t` update the row of table `u` that the column `c` refers to. -/
abbrev LinkRel := TableName → Col → TableName → Prop

/-- The column plays no part in finding rows. -/
def SafeCol (S : Schema) (Link : LinkRel) (t : TableName) (col : Col) : Prop :=
  col ≠ S.key t ∧ (∀ c u, Link t c u → col ≠ c) ∧ ∀ p ∈ S.refs t, col ≠ p.1

structure Climbs (E : Engine) (S : Schema) (ρ : TableName → Nat) (Link : LinkRel) : Prop where
  acts : ∀ tr ∈ E.triggers, ∀ u, Action.update u ∈ tr.actions →
    ∃ c s, Link tr.table c u.table ∧ u.key = .eq (S.key u.table) s c ∧ SafeCol S Link u.table u.col
  one : ∀ {t c u c' u'}, Link t c u → Link t c' u' → c = c' ∧ u = u'
  low : ∀ {t c u}, Link t c u → ρ u < ρ t
  refs : ∀ t, ∀ p ∈ S.refs t, ρ p.2 < ρ t

/-- A row on the path: its table, its key, and the key of the row above. -/
structure Stop where
  table : TableName
  key : Val
  up : Val

/-- The rows written so far, the latest one first. -/
def IsPath (Link : LinkRel) : List Stop → Prop
  | [] => False
  | [_] => True
  | e :: e' :: T => (∃ c, Link e'.table c e.table) ∧ e.key = e'.up ∧ IsPath Link (e' :: T)

section
variable {E : Engine} {S : Schema} {ρ : TableName → Nat} {Link : LinkRel}

theorem path_next (hC : Climbs E S ρ Link) : ∀ {T : List Stop}, IsPath Link T → ∀ {e : Stop} {c : Col} {u : TableName}, e ∈ T → Link e.table c u →
    (∃ e2 ∈ T, e2.table = u ∧ e2.key = e.up) ∨ T.head? = some e
  | [], h, _, _, _, _, _ => h.elim
  | [_], _, _, _, _, he, _ => by simp only [List.mem_singleton] at he; subst he; exact .inr rfl
  | e1 :: e2 :: T, h, e, c, u, he, hl => by
    rcases List.mem_cons.1 he with rfl | he
    · exact .inr rfl
    · rcases path_next hC h.2.2 he hl with ⟨e3, h3, h4⟩ | hh
      · exact .inl ⟨e3, List.mem_cons_of_mem _ h3, h4⟩
      · simp only [List.head?_cons, Option.some.injEq] at hh
        subst hh
        obtain ⟨c', hl'⟩ := h.1
        exact .inl ⟨e1, List.mem_cons_self .., (hC.one hl' hl).2, h.2.1⟩

theorem path_low (hC : Climbs E S ρ Link) : ∀ {T : List Stop}, IsPath Link T → ∀ {e : Stop}, T.head? = some e → ∀ e' ∈ T, ρ e.table ≤ ρ e'.table
  | [], h, _, _, _, _ => h.elim
  | [_], _, e, hh, e', he => by
    simp only [List.head?_cons, Option.some.injEq] at hh
    simp only [List.mem_singleton] at he
    subst hh; subst he; exact Nat.le_refl _
  | e1 :: e2 :: T, h, e, hh, e', he => by
    simp only [List.head?_cons, Option.some.injEq] at hh
    subst hh
    rcases List.mem_cons.1 he with rfl | he
    · exact Nat.le_refl _
    · obtain ⟨c, hl⟩ := h.1
      have := path_low hC h.2.2 rfl e' he
      have := hC.low hl
      omega

/-- Work left: updates of the row above some row of the path. -/
def OnPath (S : Schema) (Link : LinkRel) (T : List Stop) (db : Db) : Item → Prop
  | .act _ ch (.update u) => ∃ e ∈ T, ∃ c s, Link e.table c u.table ∧ u.key = .eq (S.key u.table) s c ∧ ch.side s c = e.up ∧ SafeCol S Link u.table u.col
  | .act .. => True
  | .write _ t ops => ∃ e ∈ T, ∃ c, Link e.table c t ∧ ∀ op ∈ ops, ∃ i σ col, op = .upd i σ ∧ SafeCol S Link t col ∧
      (∀ r, (db.rows t)[i]? = some r → r (S.key t) = e.up) ∧ ∀ x r c', c' ≠ col → σ x r c' = r c'

/-- What holds while a statement on table `t0` runs: `T` are the rows written, `pre` the locks taken. -/
structure Climbing (S : Schema) (ρ : TableName → Nat) (Link : LinkRel) (t0 : TableName) (T : List Stop) (pre : List Lock) (W : List Item) (db : Db) : Prop where
  path : IsPath Link T
  top : ∀ e ∈ T, ρ e.table ≤ ρ t0
  work : ∀ it ∈ W, OnPath S Link T db it
  same : ∀ t, t ≠ t0 → ∀ r ∈ db.rows t, ∀ r' ∈ db.rows t, r (S.key t) = r' (S.key t) → ∀ c u, Link t c u → r c = r' c
  ups : ∀ e ∈ T, e.table ≠ t0 → ∀ r ∈ db.rows e.table, r (S.key e.table) = e.key → ∀ c u, Link e.table c u → r c = e.up
  locked : ∀ h ∈ pre, h.mode ≠ .key → ∃ e ∈ T, e.table = h.table
  holds : ∀ e ∈ T, e.table ≠ t0 → (⟨e.table, e.key, .write⟩ : Lock) ∈ pre

/-- Rows keep their keys and references. -/
def KeepsLinks (S : Schema) (Link : LinkRel) (db db' : Db) : Prop :=
  ∀ (t : TableName) (i : Nat) (r' : Row), (db'.rows t)[i]? = some r' →
    ∃ r, (db.rows t)[i]? = some r ∧ r' (S.key t) = r (S.key t) ∧ ∀ c u, Link t c u → r' c = r c

theorem KeepsLinks.refl (db : Db) : KeepsLinks S Link db db := fun _ _ r' h => ⟨r', h, rfl, fun _ _ _ => rfl⟩

theorem KeepsLinks.mem {db db' : Db} (h : KeepsLinks S Link db db') {t : TableName} {r' : Row} (hr : r' ∈ db'.rows t) :
    ∃ r ∈ db.rows t, r' (S.key t) = r (S.key t) ∧ ∀ c u, Link t c u → r' c = r c := by
  obtain ⟨i, hi⟩ := List.mem_iff_getElem?.1 hr
  obtain ⟨r, hr, h1⟩ := h t i r' hi
  exact ⟨r, List.mem_of_getElem? hr, h1⟩

theorem onPath_keeps {T T' : List Stop} {db db' : Db} (h : KeepsLinks S Link db db') (hT : ∀ e ∈ T, e ∈ T') {it : Item} (ho : OnPath S Link T db it) :
    OnPath S Link T' db' it := by
  cases it with
  | act fr ch a =>
    cases a with
    | markValues => trivial
    | markSelect => trivial
    | update u =>
      obtain ⟨e, he, c, s, h1⟩ := ho
      exact ⟨e, hT e he, c, s, h1⟩
  | write fr t ops =>
    obtain ⟨e, he, c, hl, hops⟩ := ho
    refine ⟨e, hT e he, c, hl, fun op hop => ?_⟩
    obtain ⟨i, σ, col, h1, h2, h3, h4⟩ := hops op hop
    refine ⟨i, σ, col, h1, h2, fun r hr => ?_, h4⟩
    obtain ⟨r0, hr0, hk, _⟩ := h t i r hr
    rw [hk]; exact h3 r0 hr0

/-- The actions that a written row causes. -/
theorem onPath_fired (hC : Climbs E S ρ Link) {T : List Stop} {db : Db} {ch : Change} {e : Stop} (he : e ∈ T) (ht : e.table = ch.table)
    (hold : ∀ c u, Link ch.table c u → ch.old c = e.up) (hnew : ∀ c u, Link ch.table c u → ch.new c = e.up) {fr : Frame} {it : Item}
    (hit : it ∈ E.fired fr ch) : OnPath S Link T db it := by
  obtain ⟨tr, htr, hen, a, ha, rfl⟩ := mem_fired.1 hit
  simp only [Engine.enters, Bool.and_eq_true, decide_eq_true_eq] at hen
  cases a with
  | markValues => trivial
  | markSelect => trivial
  | update u =>
    obtain ⟨c, s, hl, hk, hs⟩ := hC.acts tr htr u ha
    rw [hen.1.1.1] at hl
    refine ⟨e, he, c, s, by rw [ht]; exact hl, hk, ?_, hs⟩
    cases s
    · exact hnew c _ hl
    · exact hold c _ hl

theorem keeps_upd {db : Db} {t : TableName} {i : Nat} {r r' : Row} {n : Nat} (hi : (db.rows t)[i]? = some r) (hk : r' (S.key t) = r (S.key t))
    (hl : ∀ c u, Link t c u → r' c = r c) : KeepsLinks S Link db { db.setRows t ((db.rows t).set i r') with draws := n } := by
  intro t' i' x hx
  by_cases ht : t' = t
  · subst ht
    simp only [Db.setRows_same] at hx
    by_cases hii : i = i'
    · subst hii
      rw [List.getElem?_set_self (List.getElem?_eq_some_iff.1 hi).1] at hx
      cases hx
      exact ⟨r, hi, hk, hl⟩
    · rw [List.getElem?_set_ne hii] at hx
      exact ⟨x, hx, rfl, fun _ _ _ => rfl⟩
  · have : ({ db.setRows t ((db.rows t).set i r') with draws := n } : Db).rows t' = db.rows t' := Db.setRows_other _ _ ht
    rw [this] at hx
    exact ⟨x, hx, rfl, fun _ _ _ => rfl⟩

theorem updLocks {b : Backend} {t : TableName} {r r' : Row} (h : ∀ p ∈ S.refs t, r' p.1 = r p.1) :
    Change.locks S b ⟨t, .update, r, r'⟩ = [⟨t, r (S.key t), .write⟩] := by
  simp only [Change.locks, List.cons.injEq, true_and, Change.referred]
  rw [List.filterMap_eq_nil_iff]
  intro p hp
  simp [h p hp]

open Classical in
/-- One row is written by a trigger. -/
theorem climb_op (hC : Climbs E S ρ Link) {t0 : TableName} {T : List Stop} {pre : List Lock} {W : List Item} {db : Db} {fr : Frame} {t : TableName} {op : RowOp}
    {ops : List RowOp} (b : Backend) (h : Climbing S ρ Link t0 T pre (.write fr t (op :: ops) :: W) db) :
    ∃ T', InOrderAfter ρ pre ((applyOp E t op db).2.flatMap (Change.locks S b)) ∧
      Climbing S ρ Link t0 T' (pre ++ (applyOp E t op db).2.flatMap (Change.locks S b))
        (.write fr t ops :: ((applyOp E t op db).2.flatMap (E.fired fr) ++ W)) (applyOp E t op db).1 := by
  obtain ⟨e, he, c, hl, hops⟩ := h.work _ (List.mem_cons_self ..)
  obtain ⟨i, σ, col, rfl, hsafe, hkey, hσ⟩ := hops op (List.mem_cons_self ..)
  have hrest : OnPath S Link T db (.write fr t ops) := ⟨e, he, c, hl, fun op ho => hops op (List.mem_cons_of_mem _ ho)⟩
  have hW : ∀ it ∈ W, OnPath S Link T db it := fun it hit => h.work it (List.mem_cons_of_mem _ hit)
  cases hi : (db.rows t)[i]? with
  | none =>
    simp only [applyOp, hi, List.flatMap_nil, List.nil_append, List.append_nil]
    refine ⟨T, trivial, h.path, h.top, fun it hit => ?_, h.same, h.ups, h.locked, h.holds⟩
    rcases List.mem_cons.1 hit with rfl | hit
    · exact hrest
    · exact hW it hit
  | some r =>
    have hrm : r ∈ db.rows t := List.mem_of_getElem? hi
    have hrk := hkey r hi
    have hlow : ρ t < ρ e.table := hC.low hl
    have htop := h.top e he
    have hne : t ≠ t0 := by rintro rfl; omega
    simp only [applyOp, hi, List.flatMap_cons, List.flatMap_nil, List.append_nil]
    generalize hr' : σ (E.rand db.draws) r = r'
    have hsame : ∀ c', c' ≠ col → r' c' = r c' := fun c' hc' => by rw [← hr']; exact hσ _ _ c' hc'
    have hk' : r' (S.key t) = r (S.key t) := hsame _ (Ne.symm hsafe.1)
    have hl' : ∀ c u, Link t c u → r' c = r c := fun c u hlu => hsame _ (Ne.symm (hsafe.2.1 c u hlu))
    rw [updLocks (fun p hp => hsame _ (Ne.symm (hsafe.2.2 p hp)))]
    generalize hdb' : ({ db.setRows t ((db.rows t).set i r') with draws := db.draws + 1 } : Db) = db'
    have hkeeps : KeepsLinks S Link db db' := hdb' ▸ keeps_upd hi hk' hl'
    -- what follows holds whichever way the path goes on
    have done : ∀ (T' : List Stop) (e' : Stop), (∀ x ∈ T, x ∈ T') → e' ∈ T' → e'.table = t → (∀ c u, Link t c u → r c = e'.up) → IsPath Link T' →
        (∀ x ∈ T', x ∈ T ∨ x = ⟨t, r (S.key t), e'.up⟩) →
        Climbing S ρ Link t0 T' (pre ++ [⟨t, r (S.key t), .write⟩]) (.write fr t ops :: (E.fired fr ⟨t, .update, r, r'⟩ ++ W)) db' := by
      intro T' e' hT he' het hup hpath hcases
      refine ⟨hpath, fun x hx => ?_, fun it hit => ?_, fun t' ht' x hx y hy hxy c u hlu => ?_, fun x hx hxt y hy hyk c u hlu => ?_, fun l hl hm => ?_, fun x hx hxt => ?_⟩
      · rcases hcases x hx with hx | rfl
        · exact h.top x hx
        · simp only; omega
      · rcases List.mem_cons.1 hit with rfl | hit
        · exact onPath_keeps hkeeps hT hrest
        rcases List.mem_append.1 hit with hit | hit
        · exact onPath_fired hC he' het hup (fun c u hlu => (hl' c u hlu).trans (hup c u hlu)) hit
        · exact onPath_keeps hkeeps hT (hW it hit)
      · obtain ⟨x0, hx0, hxk, hxl⟩ := hkeeps.mem hx
        obtain ⟨y0, hy0, hyk, hyl⟩ := hkeeps.mem hy
        rw [hxl c u hlu, hyl c u hlu]
        exact h.same t' ht' x0 hx0 y0 hy0 (by rw [← hxk, ← hyk]; exact hxy) c u hlu
      · obtain ⟨y0, hy0, hyk0, hyl⟩ := hkeeps.mem hy
        rw [hyl c u hlu]
        rcases hcases x hx with hx | rfl
        · exact h.ups x hx hxt y0 hy0 (by rw [← hyk0]; exact hyk) c u hlu
        · simp only at hy0 hyk0 hyk hlu ⊢
          rw [← hup c u hlu]
          exact h.same t hne y0 hy0 r hrm (by rw [← hyk0]; exact hyk) c u hlu
      · rcases List.mem_append.1 hl with hl | hl
        · obtain ⟨x, hx, hxt⟩ := h.locked l hl hm
          exact ⟨x, hT x hx, hxt⟩
        · simp only [List.mem_singleton] at hl
          subst hl
          exact ⟨e', he', het⟩
      · rcases hcases x hx with hx | rfl
        · exact List.mem_append_left _ (h.holds x hx hxt)
        · exact List.mem_append_right _ (by simp)
    rcases path_next hC h.path he hl with ⟨e2, he2, het, hek⟩ | hhead
    · have hup : ∀ c u, Link t c u → r c = e2.up := fun c u hlu => by
        have := h.ups e2 he2 (by rw [het]; exact hne)
        rw [het] at this
        exact this r hrm (by rw [hrk, hek]) c u hlu
      refine ⟨T, ⟨.inl ⟨⟨e2.table, e2.key, .write⟩, h.holds e2 he2 (by rw [het]; exact hne), het, by simp only; rw [hek, hrk], fun _ h => h⟩, trivial⟩, ?_⟩
      exact done T e2 (fun _ h => h) he2 het hup h.path (fun x hx => .inl hx)
    · let v : Val := if hx : ∃ c u, Link t c u then r hx.choose else .null
      have hv : ∀ c u, Link t c u → r c = v := by
        intro c u hlu
        have hx : ∃ c u, Link t c u := ⟨c, u, hlu⟩
        have : v = r hx.choose := dif_pos hx
        rw [this, (hC.one hlu hx.choose_spec.choose_spec).1]
      refine ⟨⟨t, r (S.key t), v⟩ :: T, ⟨.inr ⟨by simp, fun l hl hm => ?_⟩, trivial⟩, ?_⟩
      · obtain ⟨x, hx, hxt⟩ := h.locked l hl hm
        have := path_low hC h.path hhead x hx
        rw [← hxt]
        simp only; omega
      · refine done _ ⟨t, r (S.key t), v⟩ (fun x hx => List.mem_cons_of_mem _ hx) (List.mem_cons_self ..) rfl hv ?_ (fun x hx => ?_)
        · cases T with
          | nil => simp at hhead
          | cons e1 T =>
            simp only [List.head?_cons, Option.some.injEq] at hhead
            subst hhead
            exact ⟨⟨c, hl⟩, hrk, h.path⟩
        · rcases List.mem_cons.1 hx with rfl | hx
          · exact .inr rfl
          · exact .inl hx

theorem climb_write (hC : Climbs E S ρ Link) {t0 : TableName} (b : Backend) (fr : Frame) (t : TableName) : ∀ (ops : List RowOp) {T : List Stop} {pre : List Lock}
    {W : List Item} {db : Db}, Climbing S ρ Link t0 T pre (.write fr t ops :: W) db →
    ∃ T', InOrderAfter ρ pre ((opChanges E t ops db).flatMap fun p => Change.locks S b p.1) ∧
      Climbing S ρ Link t0 T' (pre ++ (opChanges E t ops db).flatMap fun p => Change.locks S b p.1)
        ((applyOps E t ops db).2.flatMap (E.fired fr) ++ W) (applyOps E t ops db).1
  | [], T, pre, W, db, h => by
    refine ⟨T, trivial, h.path, h.top, fun it hit => h.work it (List.mem_cons_of_mem _ (by simpa [applyOps] using hit)), h.same, h.ups, ?_, ?_⟩
    · simpa [opChanges] using h.locked
    · simpa [opChanges] using h.holds
  | op :: ops, T, pre, W, db, h => by
    obtain ⟨T1, o1, h1⟩ := climb_op hC b h
    obtain ⟨T2, o2, h2⟩ := climb_write hC b fr t ops h1
    have e : (opChanges E t (op :: ops) db).flatMap (fun p => Change.locks S b p.1) =
        (applyOp E t op db).2.flatMap (Change.locks S b) ++ (opChanges E t ops (applyOp E t op db).1).flatMap fun p => Change.locks S b p.1 := by
      simp [opChanges, List.flatMap_map]
    rw [e]
    refine ⟨T2, inOrder_append o1 o2, h2.path, h2.top, fun it hit => h2.work it ?_, h2.same, h2.ups, ?_, ?_⟩
    · exact applyOps_perm.mem_iff.2 hit
    · simpa using h2.locked
    · simpa using h2.holds

theorem climb_changes (hC : Climbs E S ρ Link) {t0 : TableName} (b : Backend) : ∀ (n : Nat) {T : List Stop} {pre : List Lock} {W : List Item} {db : Db},
    Climbing S ρ Link t0 T pre W db → InOrderAfter ρ pre ((E.changes n W db).flatMap fun p => Change.locks S b p.1)
  | 0, _, _, [], _, _ => trivial
  | 0, _, _, _ :: _, _, _ => trivial
  | _ + 1, _, _, [], _, _ => trivial
  | n + 1, T, pre, .write fr t ops :: W, db, h => by
    obtain ⟨T', o, h'⟩ := climb_write hC b fr t ops h
    simp only [Engine.changes, Engine.step, List.flatMap_append]
    exact inOrder_append o (climb_changes hC b n h')
  | n + 1, T, pre, .act fr ch a :: W, db, h => by
    have hW : ∀ it ∈ W, OnPath S Link T db it := fun it hit => h.work it (List.mem_cons_of_mem _ hit)
    simp only [Engine.changes, List.nil_append]
    cases a with
    | markValues ct s c q =>
      simp only [Engine.step, List.nil_append]
      exact climb_changes hC b n ⟨h.path, h.top, fun it hit => onPath_keeps (KeepsLinks.refl _) (fun _ h => h) (hW it hit), h.same, h.ups, h.locked, h.holds⟩
    | markSelect ct sel t k s c q =>
      simp only [Engine.step, List.nil_append]
      exact climb_changes hC b n ⟨h.path, h.top, fun it hit => onPath_keeps (KeepsLinks.refl _) (fun _ h => h) (hW it hit), h.same, h.ups, h.locked, h.holds⟩
    | update u =>
      simp only [Engine.step]
      by_cases hm : E.backend = .mysql ∧ u.table ∈ fr.tables
      · simp only [hm, and_self, ↓reduceIte]
        trivial
      · simp only [hm, ↓reduceIte]
        refine climb_changes hC b n ⟨h.path, h.top, fun it hit => ?_, h.same, h.ups, h.locked, h.holds⟩
        rcases List.mem_append.1 hit with hit | hit
        · obtain ⟨l, rfl, hl⟩ := mem_writes hit
          obtain ⟨e, he, c, s, h1, h2, h3, h4⟩ := h.work _ (List.mem_cons_self ..)
          refine ⟨e, he, c, h1, fun op hop => ?_⟩
          obtain ⟨i, hi, rfl⟩ := List.mem_map.1 (hl op hop)
          refine ⟨i, _, u.col, rfl, h4, fun r hr => ?_, fun x r c' hc' => ?_⟩
          · obtain ⟨r', hr', hw⟩ := mem_targetsOf.1 hi
            rw [hr] at hr'; cases hr'
            simp only [UpdAction.where_, h2, Key.matches, Bool.and_eq_true] at hw
            rw [(Val.sqlEq_iff.1 hw.1).1, h3]
          · simp [UpdAction.set, Row.set, hc']
        · exact hW it hit

/-- The first row, written by the statement itself. -/
theorem climb_first (hC : Climbs E S ρ Link) {b : Backend} (hb : b = .mysql → ∀ t, S.refs t = []) {ch : Change} {db : Db} {fr : Frame}
    (hins : ch.event = .insert → ch.old = ch.new) (hdel : ch.event = .delete → ch.old = ch.new)
    (hupd : ch.event = .update → ch.new (S.key ch.table) = ch.old (S.key ch.table) ∧ ∀ c u, Link ch.table c u → ch.new c = ch.old c)
    (hsame : ∀ t, t ≠ ch.table → ∀ r ∈ db.rows t, ∀ r' ∈ db.rows t, r (S.key t) = r' (S.key t) → ∀ c u, Link t c u → r c = r' c) :
    InOrderAfter ρ [] (Change.locks S b ch) ∧ ∃ T, Climbing S ρ Link ch.table T (Change.locks S b ch) (E.fired fr ch) db := by
  have heq : ∀ c u, Link ch.table c u → ch.new c = ch.old c := by
    intro c u hl
    cases he : ch.event with
    | insert => rw [hins he]
    | update => exact (hupd he).2 c u hl
    | delete => rw [hdel he]
  have hrefs : ∀ {ls : List Lock} {h0 : Lock}, h0.table = ch.table → (∀ l ∈ ls, l.mode = .key ∧ ρ l.table < ρ ch.table) → ∀ {pre : List Lock},
      (∀ l ∈ pre, l.mode = .key ∨ l = h0) → InOrderAfter ρ pre ls := by
    intro ls h0 h0t
    induction ls with
    | nil => intro _ _ _; trivial
    | cons l ls ih =>
      intro hls pre hpre
      have hl := hls l (List.mem_cons_self ..)
      refine ⟨.inr ⟨fun hm => (by rw [hl.1] at hm; cases hm), fun x hx hm => ?_⟩, ih (fun x hx => hls x (List.mem_cons_of_mem _ hx)) fun x hx => ?_⟩
      · rcases hpre x hx with h | rfl
        · exact absurd h hm
        · rw [h0t]; exact hl.2
      · rcases List.mem_append.1 hx with hx | hx
        · exact hpre x hx
        · simp only [List.mem_singleton] at hx; subst hx; exact .inl hl.1
  have shape : ∃ k m ls, Change.locks S b ch = ⟨ch.table, k, m⟩ :: ls ∧ ∀ l ∈ ls, l.mode = .key ∧ ρ l.table < ρ ch.table := by
    have hr : ∀ l ∈ ch.referred S b, l.mode = .key ∧ ρ l.table < ρ ch.table := by
      intro l hl
      obtain ⟨p, hp, hl⟩ := List.mem_filterMap.1 hl
      split at hl
      · cases hl
        by_cases hbm : b = .mysql
        · rw [hb hbm] at hp; simp at hp
        · exact ⟨if_neg hbm, hC.refs _ p hp⟩
      · cases hl
    cases he : ch.event with
    | insert => exact ⟨ch.new (S.key ch.table), .write, _, by simp [Change.locks, he], hr⟩
    | update => exact ⟨ch.old (S.key ch.table), .write, _, by simp [Change.locks, he], hr⟩
    | delete => exact ⟨ch.old (S.key ch.table), .delete, [], by simp [Change.locks, he], by simp⟩
  obtain ⟨k, m, ls, hsh, hls⟩ := shape
  rw [hsh]
  refine ⟨⟨.inr ⟨fun _ => rfl, by simp⟩, hrefs (h0 := ⟨ch.table, k, m⟩) rfl hls (by simp)⟩, ?_⟩
  classical
  let v : Val := if hx : ∃ c u, Link ch.table c u then ch.old hx.choose else .null
  have hv : ∀ c u, Link ch.table c u → ch.old c = v := by
    intro c u hlu
    have hx : ∃ c u, Link ch.table c u := ⟨c, u, hlu⟩
    have : v = ch.old hx.choose := dif_pos hx
    rw [this, (hC.one hlu hx.choose_spec.choose_spec).1]
  refine ⟨[⟨ch.table, k, v⟩], trivial, by simp, fun it hit => ?_, hsame, by simp, fun l hl hm => ?_, by simp⟩
  · exact onPath_fired hC (e := ⟨ch.table, k, v⟩) (by simp) rfl hv (fun c u hlu => (heq c u hlu).trans (hv c u hlu)) hit
  · rcases List.mem_cons.1 hl with rfl | hl
    · exact ⟨_, List.mem_singleton.2 rfl, rfl⟩
    · exact absurd (hls l hl).1 hm

theorem inOrder_stmt (hC : Climbs E S ρ Link) {b : Backend} (hb : b = .mysql → ∀ t, S.refs t = []) {s : Stmt} {db : Db} (hu : KeysDistinct S db)
    (h1 : (s.ops db).length ≤ 1)
    (h2 : ∀ t w σ, s = .update t w σ → ∀ x, ∀ r ∈ db.rows t, σ x r (S.key t) = r (S.key t) ∧ ∀ c u, Link t c u → σ x r c = r c) (fuel : Nat) :
    InOrderAfter ρ [] ((E.changesOf fuel s db).flatMap fun p => Change.locks S b p.1) := by
  have huniq : ∀ t, ∀ r ∈ db.rows t, ∀ r' ∈ db.rows t, r (S.key t) = r' (S.key t) → ∀ c u, Link t c u → r c = r' c := by
    intro t r hr r' hr' hk c u _
    rw [eq_of_key (hu t) hr hr' hk]
  have hstart : (∃ op, s.ops db = [op] ∧ E.start s db = [.write .top s.table [op]]) ∨ (E.start s db = [] ∨ E.start s db = [.write .top s.table []]) := by
    cases hops : s.ops db with
    | nil => right; cases hb : E.backend <;> simp [Engine.start, writes, hops, hb]
    | cons op ops =>
      rw [hops] at h1
      have : ops = [] := by cases ops with
        | nil => rfl
        | cons => simp at h1
      subst this
      left; refine ⟨op, rfl, ?_⟩
      cases hb : E.backend <;> simp [Engine.start, writes, hops, hb]
  simp only [Engine.changesOf]
  rcases hstart with ⟨op, hop, hst⟩ | hst | hst
  · rw [hst]
    cases fuel with
    | zero => trivial
    | succ n =>
      simp only [Engine.changes, Engine.step, opChanges, applyOps, List.append_nil, List.flatMap_append, List.flatMap_map]
      have other : ∀ {t' : TableName} {rs : List Row} {k : Nat}, t' ≠ s.table → ({ db.setRows s.table rs with draws := k } : Db).rows t' = db.rows t' :=
        fun h => Db.setRows_other _ _ h
      have go : ∀ {db' : Db} {ch : Change}, ch.table = s.table → (ch.event = .insert → ch.old = ch.new) → (ch.event = .delete → ch.old = ch.new) →
          (ch.event = .update → ch.new (S.key ch.table) = ch.old (S.key ch.table) ∧ ∀ c u, Link ch.table c u → ch.new c = ch.old c) →
          (∀ t, t ≠ s.table → db'.rows t = db.rows t) →
          InOrderAfter ρ [] (Change.locks S b ch ++ (E.changes n (E.fired .top ch) db').flatMap fun p => Change.locks S b p.1) := by
        intro db' ch ht hi hd hup hrows
        obtain ⟨o, T, hT⟩ := climb_first hC hb hi hd hup (E := E) (fr := .top) (db := db') (fun t htne r hr r' hr' => by
          rw [hrows t (ht ▸ htne)] at hr hr'
          exact huniq t r hr r' hr')
        exact inOrder_append o (climb_changes hC b n hT)
      cases op with
      | ins r =>
        have := go (db' := db.setRows s.table (db.rows s.table ++ [r])) (ch := ⟨s.table, .insert, r, r⟩) rfl (fun _ => rfl) (fun _ => rfl) (fun h => by cases h)
          (fun t ht => Db.setRows_other _ _ ht)
        simpa [applyOp] using this
      | del w =>
        cases hf : (db.rows s.table).find? w with
        | none =>
          simp only [applyOp, hf, List.flatMap_nil, List.nil_append]
          cases n <;> trivial
        | some r =>
          have := go (db' := db.setRows s.table ((db.rows s.table).eraseP w)) (ch := ⟨s.table, .delete, r, r⟩) rfl (fun _ => rfl) (fun _ => rfl) (fun h => by cases h)
            (fun t ht => Db.setRows_other _ _ ht)
          simpa [applyOp, hf] using this
      | upd i σ =>
        cases hf : (db.rows s.table)[i]? with
        | none =>
          simp only [applyOp, hf, List.flatMap_nil, List.nil_append]
          cases n <;> trivial
        | some r =>
          have hσ : ∀ x, σ x r (S.key s.table) = r (S.key s.table) ∧ ∀ c u, Link s.table c u → σ x r c = r c := by
            intro x
            cases s with
            | insert t rs =>
              have : RowOp.upd i σ ∈ (Stmt.insert t rs).ops db := by rw [hop]; simp
              simp [Stmt.ops] at this
            | delete t w =>
              have : RowOp.upd i σ ∈ (Stmt.delete t w).ops db := by rw [hop]; simp
              simp [Stmt.ops] at this
            | update t w σ' =>
              have : RowOp.upd i σ ∈ (Stmt.update t w σ').ops db := by rw [hop]; simp
              simp only [Stmt.ops, List.mem_map, RowOp.upd.injEq] at this
              obtain ⟨_, _, _, rfl⟩ := this
              exact h2 t w σ' rfl x r (List.mem_of_getElem? hf)
          have := go (db' := { db.setRows s.table ((db.rows s.table).set i (σ (E.rand db.draws) r)) with draws := db.draws + 1 })
            (ch := ⟨s.table, .update, r, σ (E.rand db.draws) r⟩) rfl (fun h => by cases h) (fun h => by cases h) (fun _ => hσ _) (fun t ht => other ht)
          simpa [applyOp, hf] using this
  · rw [hst]; cases fuel <;> trivial
  · rw [hst]
    cases fuel with
    | zero => trivial
    | succ n => simp only [Engine.changes, Engine.step, opChanges, applyOps, List.flatMap_nil, List.nil_append]; cases n <;> trivial

end

/-- The links of a project: the foreign keys along which rows are counted. -/
def Counted (D : List Denorm) : LinkRel := fun t c u => ∃ a, .aggregate a ∈ D ∧ a.related.table = t ∧ a.fk.attname = c ∧ a.model.table = u

theorem aggregate_generated {D : List Denorm} (hk : ∀ dn ∈ D, (∃ bu m f sk ds, dn = .callback bu m f sk ds) ∨ ∃ a, dn = .aggregate a) {g : PyTrigger}
    (hg : g ∈ generated D) {u : UpdAction} (hu : Action.update u ∈ g.actions) :
    ∃ a, .aggregate a ∈ D ∧ g.table = a.related.table ∧ (Action.update u = a.increment ∨ Action.update u = a.decrement) := by
  obtain ⟨dn, hdn, hg⟩ := List.mem_flatMap.1 hg
  rcases hk dn hdn with ⟨bu, m, f, sk, ds, rfl⟩ | ⟨a, rfl⟩
  · simp only [Denorm.triggers, List.mem_append] at hg
    rcases hg with hg | hg
    · split at hg
      · simp at hg
      · simp only [selfTriggers, List.mem_cons, List.not_mem_nil, or_false] at hg
        rcases hg with rfl | rfl <;> simp [mkTrigger_actions] at hu
    · obtain ⟨d, _, hg⟩ := List.mem_flatMap.1 hg
      exact absurd hu (callback_no_update hg)
  · refine ⟨a, hdn, ?_, aggregate_update hg hu⟩
    simp only [Denorm.triggers, AggDenorm.triggers, List.mem_cons, List.not_mem_nil, or_false] at hg
    rcases hg with rfl | rfl | rfl <;> simp [mkTrigger]

theorem climbs_of {E : Engine} {S : Schema} {D : List Denorm} {ρ : TableName → Nat} (hE : Installed E D) (hP : CountsUp S D ρ) : Climbs E S ρ (Counted D) where
  acts := by
    intro tr htr u hu
    rw [hE] at htr
    obtain ⟨g, hg, h1, h2⟩ := installed_origin htr hu
    obtain ⟨g', hg', h3, h4, _⟩ := installed_head htr
    obtain ⟨a, ha, hga, hau⟩ := aggregate_generated hP.kinds hg h2
    have htab : tr.table = a.related.table := by rw [h4, ← name_table (fun _ => hP.names) hg hg' (h1.trans h3.symm), hga]
    have hsafe : SafeCol S (Counted D) a.model.table a.fieldname := by
      refine ⟨by rw [hP.key a ha]; exact hP.notKey a ha, ?_, hP.notRef a ha⟩
      rintro c u ⟨a', ha', h1, rfl, _⟩
      exact hP.notLink a a' ha ha' h1
    rcases hau with h | h <;> simp only [AggDenorm.increment, AggDenorm.decrement, Action.update.injEq] at h <;> subst h
    · exact ⟨a.fk.attname, .new, ⟨a, ha, htab.symm, rfl, rfl⟩, by simp only; rw [hP.key a ha], hsafe⟩
    · exact ⟨a.fk.attname, .old, ⟨a, ha, htab.symm, rfl, rfl⟩, by simp only; rw [hP.key a ha], hsafe⟩
  one := by
    rintro t c u c' u' ⟨a, ha, rfl, rfl, rfl⟩ ⟨a', ha', h, rfl, rfl⟩
    exact (hP.oneLink a a' ha ha' h.symm).symm
  low := by
    rintro t c u ⟨a, ha, rfl, rfl, rfl⟩
    exact hP.level a ha
  refs := hP.constraints

/-- With one lock for the whole database everything is in order. -/
theorem inOrder_whole {ρ : TableName → Nat} : ∀ {l pre : List Lock}, (∀ q ∈ l, q = wholeDatabase) → (∀ q ∈ pre, q = wholeDatabase) → InOrderAfter ρ pre l
  | [], _, _, _ => trivial
  | q :: l, pre, hl, hp => by
    have hq := hl q (List.mem_cons_self ..)
    refine ⟨?_, inOrder_whole (fun x hx => hl x (List.mem_cons_of_mem _ hx)) fun x hx => ?_⟩
    · cases pre with
      | nil => exact .inr ⟨fun _ => rfl, by simp⟩
      | cons h pre => exact .inl ⟨h, List.mem_cons_self .., by rw [hq, hp h (List.mem_cons_self ..)]; exact .refl _⟩
    · rcases List.mem_append.1 hx with hx | hx
      · exact hp x hx
      · simp only [List.mem_singleton] at hx; subst hx; exact hq

theorem whole_stmt {A : App} {S : Schema} (hb : A.engine.backend = .sqlite) (s : Stmt) (db : Db) : ∀ q ∈ A.stmtLocks S s db, q = wholeDatabase := by
  intro q hq
  simp only [App.stmtLocks, hb] at hq
  split at hq
  · simp at hq
  · simpa using hq

theorem whole_txn {A : App} {S : Schema} (hb : A.engine.backend = .sqlite) : ∀ (ss : List Stmt) (db : Db), ∀ q ∈ A.txnLocks S ss db, q = wholeDatabase
  | [], _, q, hq => by simp [App.txnLocks] at hq
  | s :: ss, db, q, hq => by
    simp only [App.txnLocks, List.mem_append] at hq
    rcases hq with hq | hq
    · exact whole_stmt hb s db q hq
    · split at hq
      · exact whole_txn hb ss _ q hq
      · simp at hq

theorem inOrder_oneRow {A : App} {S : Schema} {D : List Denorm} {ρ : TableName → Nat} (hE : Installed A.engine D) (hP : CountsUp S D ρ)
    (hb : A.engine.backend = .mysql → ∀ t, S.refs t = []) {p : List Lock} (h : OneRowLocks A S D p) : InOrderAfter ρ [] p := by
  obtain ⟨s, db, hu, ⟨h1, h2⟩, rfl⟩ := h
  have key := inOrder_stmt (climbs_of hE hP) hb hu h1 (by
    rintro t w σ rfl x r hr
    refine ⟨(h2 x r hr).1, ?_⟩
    rintro c u ⟨a, ha, h3, rfl, _⟩
    exact (h2 x r hr).2 a ha h3) A.fuel
  cases hback : A.engine.backend with
  | sqlite => exact inOrder_whole (whole_stmt hback s db) (by simp)
  | mysql => rw [hback] at key; simpa [App.stmtLocks, hback, App.changesOf, List.flatMap_map] using key
  | postgresql => rw [hback] at key; simpa [App.stmtLocks, hback, App.changesOf, List.flatMap_map] using key

end Denorm
