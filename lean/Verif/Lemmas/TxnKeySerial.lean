import Verif.Spec.TxnKeySerial
import Verif.Lemmas.TxnKey
/-!
# Cache keys among transactions that do not overlap: lemmas
-/
namespace Denorm

/-- What is related does not depend on the order of rows. -/
theorem mem_related {d : Dep} {db db' : Db} (h : ∀ t r, r ∈ db.rows t ↔ r ∈ db'.rows t) (r o : Row) : o ∈ relatedRows d db r ↔ o ∈ relatedRows d db' r := by
  rcases d with ⟨this, other, rel, skip⟩
  rcases rel with f | f | (m | g) | (m | g) <;> simp only [relatedRows, List.mem_filter, List.mem_flatMap, h]

theorem mem_seen {d : DepRead} {db db' : Db} (h : ∀ t r, r ∈ db.rows t ↔ r ∈ db'.rows t) (r : Row) (x : List Val) :
    x ∈ seen d.reads (relatedRows d.dep db r) ↔ x ∈ seen d.reads (relatedRows d.dep db' r) := by
  simp only [seen, List.mem_map, mem_related h]

/-- What each key stands for, for all kinds of relations. -/
structure KeySeen (E : Engine) (k : KeyField) (memo : Memo) (db : Db) : Prop where
  right : ∀ r ∈ db.rows k.model.table, ∀ d ∈ k.deps, ∀ x, x ∈ seen d.reads (relatedRows d.dep db r) ↔ memo (r k.model.pk) (r k.field) d x
  keys : KeysOk k.relations db
  old : ∀ r ∈ db.rows k.model.table, ∀ n, db.draws ≤ n → r k.field ≠ .int (E.rand n)

theorem KeySeen.congr {E : Engine} {k : KeyField} {memo : Memo} {db db' : Db} (h : KeySeen E k memo db) (hr : ∀ t r, r ∈ db'.rows t ↔ r ∈ db.rows t)
    (hd : db.draws ≤ db'.draws) : KeySeen E k memo db' where
  right r hm d hd x := by rw [mem_seen hr]; exact h.right r ((hr _ r).1 hm) d hd x
  keys p hp r hm := h.keys p hp r ((hr _ r).1 hm)
  old r hm n hn := h.old r ((hr _ r).1 hm) n (by omega)

section
variable {A : App} {S : Schema} {D : List Denorm} {k : KeyField} {memo : Memo}

/-- An instance that keeps its key and its ForeignKeys sees the same as before. -/
theorem stmt_sight_all (hA : KeySettingAll A S D k) {db db' : Db} {s : Stmt} (hL : LegalStmt A.engine k.relations db s) (hK : KeysOk k.relations db)
    (hS : KeyLegal k db s) (hs : k.SparesDraws A.engine db s) (hd : Drawn A.engine k db.draws db) {fuel : Nat} (he : A.engine.exec fuel s db = .ok db') {r r' : Row}
    (hr : r ∈ db.rows k.model.table) (hr' : r' ∈ db'.rows k.model.table) (hpk : r k.model.pk = r' k.model.pk) (hkey : r k.field = r' k.field)
    (hfk : ∀ c ∈ k.fks, r' c = r c) : k.SameSight db r db' r' := by
  have hs' : KeyStmt A.engine k db.draws s := by cases s <;> exact hs
  have hG : SeenProp k [] fun db2 r2 => (∀ c ∈ k.fks, r2 c = r c) → k.SameSight db r db2 r2 := by
    intro db1 db2 a b _ h2 h3 h4 hc d hd x
    rw [h3 d hd]
    exact h4 (fun c hcm => (h2 c (.inr hcm)).symm.trans (hc c hcm)) d hd x
  have hsame : ∀ r1 : Row, r1 k.model.pk = r k.model.pk → (∀ c ∈ k.fks, r1 c = r c) → k.SameSight db r db r1 := by
    intro r1 h1 h2 d hd x
    rw [relatedRows_congr (r := r) (r' := r1) (hA.generic d hd) (by rw [hA.declared.this d hd]; exact h1.symm) fun c hc =>
      (h2 c (List.mem_flatMap.2 ⟨d, hd, hc⟩)).symm]
  have hfin : (CalmStmt k [] (r k.model.pk) (fun db2 r2 => (∀ c ∈ k.fks, r2 c = r c) → k.SameSight db r db2 r2) (fun _ => True) s ∧
        ∀ r1 ∈ db.rows k.model.table, r1 k.model.pk = r k.model.pk → ((∀ c ∈ k.fks, r1 c = r c) → k.SameSight db r db r1) ∧ True) ∨
      (∃ op, s.ops db = [op] ∧ ∀ r1 ∈ (applyOp A.engine s.table op db).1.rows k.model.table, r1 k.model.pk = r k.model.pk →
        ((∀ c ∈ k.fks, r1 c = r c) → k.SameSight db r db r1) ∧ True) → k.SameSight db r db' r' := by
    intro h0
    rcases holds_or_drawn hA.installed hA.declared hA.noReentry hA.rand hG hA.generic (by simp) hL hK hS hs' hd he h0 hr' hpk.symm with h | ⟨n, h1, _, h3⟩
    · exact h.1 hfk
    · exact absurd (hkey.trans h3) (hd.old r hr n h1)
  cases s with
  | insert t rs =>
    refine hfin (.inl ⟨fun ht r1 h1 h2 => ?_, fun r1 _ h2 => ⟨hsame r1 h2, trivial⟩⟩)
    exact absurd h2.symm ((hS ht).1 r1 h1 r (ht ▸ hr))
  | delete t w => exact hfin (.inl ⟨trivial, fun r1 _ h2 => ⟨hsame r1 h2, trivial⟩⟩)
  | update t w σ =>
    by_cases ht : t = k.model.table
    · rcases hS ht with h1 | h1
      · have hlen : (targetsOf (db.rows t) w).length ≤ 1 := by rw [targetsOf_length]; exact h1
        cases hop : (Stmt.update t w σ).ops db with
        | nil =>
          rw [exec_none hop he] at hr' ⊢
          exact hsame r' hpk.symm hfk
        | cons op ops =>
          have : ops = [] := by
            have h2 : ((Stmt.update t w σ).ops db).length ≤ 1 := by simpa [Stmt.ops] using hlen
            rw [hop] at h2
            simpa using h2
          subst this
          exact hfin (.inr ⟨op, hop, fun r1 _ h2 => ⟨hsame r1 h2, trivial⟩⟩)
      · refine hfin (.inl ⟨fun _ x r1 => ⟨(h1 x r1).1, fun c hc => ?_⟩, fun r1 _ h2 => ⟨hsame r1 h2, trivial⟩⟩)
        rcases hc with hc | hc
        · simp at hc
        · exact (h1 x r1).2 c hc
    · exact hfin (.inl ⟨fun h => absurd h ht, fun r1 _ h2 => ⟨hsame r1 h2, trivial⟩⟩)

/-- What is known after the instances of `v` have got their keys. -/
def newMemoAll (k : KeyField) (v : Db) (memo : Memo) : Memo := fun κ K d x =>
  (∃ r ∈ v.rows k.model.table, r k.model.pk = κ ∧ r k.field = K ∧ x ∈ seen d.reads (relatedRows d.dep v r)) ∨
  (¬ ∃ r ∈ v.rows k.model.table, r k.model.pk = κ ∧ r k.field = K) ∧ memo κ K d x

theorem keySeen_new {v : Db} (hU : ((v.rows k.model.table).map fun r => r k.model.pk).Nodup) (hK : KeysOk k.relations v)
    (ho : ∀ r ∈ v.rows k.model.table, ∀ n, v.draws ≤ n → r k.field ≠ .int (A.engine.rand n)) : KeySeen A.engine k (newMemoAll k v memo) v where
  right r hr d hd x := by
    constructor
    · exact fun hx => .inl ⟨r, hr, rfl, rfl, hx⟩
    · rintro (⟨r1, h1, h2, _, hx⟩ | ⟨hn, _⟩)
      · rw [← mem_of_pk hU h1 hr h2]
        exact hx
      · exact absurd ⟨r, hr, rfl, rfl⟩ hn
  keys := hK
  old := ho

theorem keySeen_agree {v db0 : Db} (h : KeySeen A.engine k memo db0)
    (ha : ∀ r0 ∈ db0.rows k.model.table, ∀ r' ∈ v.rows k.model.table, r' k.model.pk = r0 k.model.pk → r' k.field = r0 k.field →
      ∀ d ∈ k.deps, ∀ x, x ∈ seen d.reads (relatedRows d.dep v r') ↔ memo (r' k.model.pk) (r' k.field) d x) : KeySeen A.engine k (newMemoAll k v memo) db0 where
  right r hr d hd x := by
    rw [h.right r hr d hd x]
    constructor
    · intro hm
      by_cases he : ∃ r' ∈ v.rows k.model.table, r' k.model.pk = r k.model.pk ∧ r' k.field = r k.field
      · obtain ⟨r', h1, h2, h3⟩ := he
        refine .inl ⟨r', h1, h2, h3, ?_⟩
        refine (ha r hr r' h1 h2 h3 d hd x).2 ?_
        rw [h2, h3]
        exact hm
      · exact .inr ⟨he, hm⟩
    · rintro (⟨r', h1, h2, h3, hx⟩ | ⟨_, hm⟩)
      · have := (ha r hr r' h1 h2 h3 d hd x).1 hx
        rw [h2, h3] at this
        exact this
      · exact hm
  keys := h.keys
  old := h.old

/-- One statement: what is known afterwards. -/
theorem stmt_seen (hA : KeySettingAll A S D k) {db v : Db} {s : Stmt} (hU : KeysDistinct S db) (h : KeySeen A.engine k memo db) (hL : LegalStmt A.engine k.relations db s)
    (hS : KeyLegal k db s) (hs : k.SparesDraws A.engine db s) (he : A.exec s db = .ok v) (hst : k.Steady db v) {past : List Db} (hn : k.Renewed A.engine past db v)
    (hp : ∀ db0 ∈ past, KeySeen A.engine k memo db0 ∧ db0.draws ≤ db.draws) :
    db.draws ≤ v.draws ∧ KeySeen A.engine k (newMemoAll k v memo) v ∧ ∀ db0 ∈ past, KeySeen A.engine k (newMemoAll k v memo) db0 := by
  have he' := engine_of_exec he
  have hd : Drawn A.engine k db.draws db := ⟨by have := hU k.model.table; rw [hA.key] at this; exact this, h.old, fun r hr _ _ n hn e => absurd e (h.old r hr n hn)⟩
  have hs' : KeyStmt A.engine k db.draws s := by cases s <;> exact hs
  obtain ⟨⟨h1, h2, h3⟩, _⟩ := drawn_exec hA.installed hA.declared hA.noReentry hA.rand hL h.keys hS hs' (Nat.le_refl _) hd he'
  refine ⟨h2, keySeen_new h1.uniq h3 h1.old, fun db0 h0 => keySeen_agree (hp db0 h0).1 fun r0 hr0 r' hr' hpk hkey d hdd x => ?_⟩
  rcases hn r' hr' with ⟨r, hr, hpk', hkey'⟩ | ⟨n, hn1, hn2⟩ | hn
  · have := stmt_sight_all hA hL h.keys hS hs hd he' hr hr' hpk' hkey' (hst r hr r' hr' hpk' hkey') d hdd x
    rw [← this, h.right r hr d hdd x, hpk', hkey']
  · exact absurd (hkey.symm.trans hn2) ((hp db0 h0).1.old r0 hr0 n (Nat.le_trans (hp db0 h0).2 hn1))
  · exact absurd hkey.symm (hn db0 h0 r0 hr0 hpk.symm)

structure SerialState (A : App) (S : Schema) (k : KeyField) (memo : Memo) (past : List Db) (X : DbServer) : Prop where
  ok : AllOk S (fun _ => True) X
  now : KeySeen A.engine k memo X.db
  before : ∀ db ∈ past, KeySeen A.engine k memo db ∧ db.draws ≤ X.db.draws
  view : ∀ (i : Nat) T, X.sessions[i]? = some (some T) → T.base = X.db ∧ KeySeen A.engine k memo T.view
  one : ∀ (i j : Nat) T U, X.sessions[i]? = some (some T) → X.sessions[j]? = some (some U) → i = j

theorem true_closed : MergeClosed S fun _ => True := fun _ _ _ _ _ _ _ => trivial

theorem merge_base {base view : Db} (hb : KeysDistinct S base) (hv : KeysDistinct S view) (t : TableName) (r : Row) :
    r ∈ (Db.merge S base view base).rows t ↔ r ∈ view.rows t :=
  merge_sameAt_view ⟨hb t, hv t, hb t, fun _ => .inr (SameAt.refl _ _ _)⟩ (SameAt.refl _ _ _) r rfl

theorem serial_sight {past : List Db} {X : DbServer} (hX : SerialState A S k memo past X) (i : Nat) : KeySeen A.engine k memo (X.sight S i).1 := by
  rcases sight_cases X S i with ⟨T, h1, h2⟩ | h2 <;> rw [h2]
  · obtain ⟨h3, h4⟩ := hX.view i T h1
    have hs := hX.ok.sessions i T h1
    have := h4.congr (db' := Db.merge S X.db T.view X.db) (fun t r => merge_base hX.ok.keys hs.nview t r) (Nat.le_max_right ..)
    rw [h3]
    exact this
  · exact hX.now

theorem serial_same {past : List Db} {X : DbServer} (hX : SerialState A S k memo past X) : SerialState A S k memo (X.db :: past) X := by
  refine ⟨hX.ok, hX.now, fun db hdb => ?_, hX.view, hX.one⟩
  rcases List.mem_cons.1 hdb with rfl | hdb
  · exact ⟨hX.now, Nat.le_refl _⟩
  · exact hX.before db hdb

theorem serial_stmt (hA : KeySettingAll A S D k) {past : List Db} {X : DbServer} (hX : SerialState A S k memo past X) {i : Nat} {s : Stmt}
    (hL : LegalStmt A.engine k.relations (X.sight S i).1 s) (hKk : KeepsKeys S (X.sight S i).1 s) (hS : KeyLegal k (X.sight S i).1 s)
    (hs : k.SparesDraws A.engine (X.sight S i).1 s)
    (hn : ∀ v, A.exec s (X.sight S i).1 = .ok v → k.Steady (X.sight S i).1 v ∧ k.Renewed A.engine ((X.sight S i).1 :: X.db :: past) (X.sight S i).1 v)
    (ho : A.move S X (.stmt i s) = X ∨ ∀ (j : Nat) T, X.sessions[j]? = some (some T) → j = i) :
    ∃ memo', SerialState A S k memo' (X.db :: past) (A.move S X (.stmt i s)) := by
  rcases ho with ho | ho
  · rw [ho]
    exact ⟨memo, serial_same hX⟩
  cases he : A.exec s (X.sight S i).1 with
  | error e =>
    refine ⟨memo, ?_⟩
    simp only [App.move, he]
    exact serial_same hX
  | ok v =>
    by_cases hstay : X.waits A.engine.backend (some i) (locksOf S (A.changesOf s (X.sight S i).1)) = true ∨ (locksOf S (A.changesOf s (X.sight S i).1)).rows = []
    · refine ⟨memo, ?_⟩
      simp only [App.move, he]
      rcases hstay with h | h
      · rw [if_pos h]; exact serial_same hX
      · split
        · exact serial_same hX
        · exact serial_same hX
    · simp only [not_or, Bool.not_eq_true] at hstay
      obtain ⟨hw, hrows⟩ := hstay
      obtain ⟨hst, hren⟩ := hn v he
      have hle := sight_draws (S := S) X i
      have hsi := serial_sight hX i
      obtain ⟨_, f1, f2⟩ := stmt_seen hA (allOk_sight true_closed hX.ok i).1 hsi hL hS hs he hst hren fun db0 h0 => by
        rcases List.mem_cons.1 h0 with rfl | h0
        · exact ⟨hsi, Nat.le_refl _⟩
        · have := (serial_same hX).before db0 h0
          exact ⟨this.1, by omega⟩
      have hgo : A.move S X (.stmt i s) =
          ⟨X.db, X.sessions.set i (some ⟨X.db, v, (locksOf S (A.changesOf s (X.sight S i).1)).append (X.sight S i).2⟩)⟩ := by
        simp only [App.move, he]
        rw [if_neg (by rw [hw]; simp), if_neg hrows]
      refine ⟨newMemoAll k v memo, ⟨allOk_stmt true_closed hX.ok hA.noReentry hA.unmanaged hKk fun _ _ _ => trivial, ?_, ?_, ?_, ?_⟩⟩ <;> rw [hgo]
      · exact f2 _ (List.mem_cons_of_mem _ (List.mem_cons_self ..))
      · exact fun db0 h0 => ⟨f2 db0 (List.mem_cons_of_mem _ h0), ((serial_same hX).before db0 h0).2⟩
      · intro j T hT
        rcases getElem?_set_some hT with ⟨_, h1⟩ | ⟨h0, h1⟩
        · simp only [Option.some.injEq] at h1
          rw [← h1]
          exact ⟨rfl, f1⟩
        · exact absurd (ho j T h1) (fun e => h0 e.symm)
      · intro j j' T U hT hU
        have key : ∀ (j : Nat) T, (X.sessions.set i (some ⟨X.db, v, (locksOf S (A.changesOf s (X.sight S i).1)).append (X.sight S i).2⟩))[j]? = some (some T) → j = i := by
          intro j T hT
          rcases getElem?_set_some hT with ⟨h0, _⟩ | ⟨_, h1⟩
          · exact h0.symm
          · exact ho j T h1
        rw [key j T hT, key j' U hU]

theorem serial_close {past : List Db} {X : DbServer} (hX : SerialState A S k memo past X) (i : Nat) :
    SerialState A S k memo (X.db :: past) ⟨X.db, X.sessions.set i none⟩ := by
  have hsub : ∀ (j : Nat) T, (X.sessions.set i none)[j]? = some (some T) → X.sessions[j]? = some (some T) := by
    intro j T hT
    rcases getElem?_set_some hT with ⟨_, h1⟩ | ⟨_, h1⟩
    · simp at h1
    · exact h1
  exact ⟨allOk_close hX.ok i, hX.now, (serial_same hX).before, fun j T hT => hX.view j T (hsub j T hT),
    fun j j' T U hT hU => hX.one j j' T U (hsub j T hT) (hsub j' U hU)⟩

theorem serial_commit {past : List Db} {X : DbServer} (hX : SerialState A S k memo past X) (i : Nat) :
    SerialState A S k memo (X.db :: past) (A.move S X (.commit i)) := by
  rcases sight_cases X S i with ⟨T, h1, h2⟩ | h2
  · have hle := sight_draws (S := S) X i
    have hnone : ∀ (j : Nat) U, (X.sessions.set i none)[j]? = some (some U) → False := by
      intro j U hU
      rcases getElem?_set_some hU with ⟨_, h3⟩ | ⟨h0, h3⟩
      · simp at h3
      · exact h0 (hX.one i j T U h1 h3)
    refine ⟨allOk_commit true_closed hX.ok i, serial_sight hX i, fun db hdb => ?_, fun j U hU => (hnone j U hU).elim, fun j _ U _ hU _ => (hnone j U hU).elim⟩
    have := (serial_same hX).before db hdb
    exact ⟨this.1, Nat.le_trans this.2 hle⟩
  · simp only [App.move, h2]
    exact serial_close hX i

theorem serial_flushOne (hA : KeySettingAll A S D k) {past : List Db} {X : DbServer} (hX : SerialState A S k memo past X) {m : Mark}
    (hs : ∀ om ∈ A.models, ∀ r ∈ X.db.rows om.model.table, ∀ mem, preSaveAll A om.model X.db false om.saved r = .ok mem → k.SparesDraws A.engine X.db (saveUpdate om mem))
    (hn : ∀ db', A.flushOne m X.db = .ok db' → k.Steady X.db db' ∧ k.Renewed A.engine (X.db :: past) X.db db')
    (ho : A.move S X (.flushOne m) = X ∨ ∀ T, some T ∉ X.sessions) : ∃ memo', SerialState A S k memo' (X.db :: past) (A.move S X (.flushOne m)) := by
  have same := serial_same hX
  rcases ho with ho | ho
  · rw [ho]
    exact ⟨memo, same⟩
  have hnone : ∀ (j : Nat) U, X.sessions[j]? = some (some U) → False := fun j U hU => ho U (List.mem_of_getElem? hU)
  by_cases hw : A.flushWaits S m X = true
  · refine ⟨memo, ?_⟩
    simp only [App.move]
    rw [if_pos hw]
    exact same
  · cases hf : A.flushOne m X.db with
    | error e =>
      refine ⟨memo, ?_⟩
      simp only [App.move, hf]
      rw [if_neg hw]
      exact same
    | ok db' =>
      obtain ⟨hst, hren⟩ := hn db' hf
      have hgo : A.move S X (.flushOne m) = ⟨db', X.sessions⟩ := by
        simp only [App.move, hf]
        rw [if_neg hw]
      have hall : AllOk S (fun _ => True) (A.move S X (.flushOne m)) := allOk_flushOne hX.ok hA.noReentry hA.unmanaged hA.pks hA.models fun _ _ _ => trivial
      simp only [App.flushOne] at hf
      cases h1 : A.saveObject m X.db with
      | error e => rw [h1] at hf; simp at hf
      | ok db1 =>
        rw [h1] at hf
        simp only [Except.ok.injEq] at hf
        have hrows : db'.rows = db1.rows := by rw [← hf]; rfl
        have hdraws : db'.draws = db1.draws := by rw [← hf]; rfl
        suffices h : ∃ memo', X.db.draws ≤ db1.draws ∧ KeySeen A.engine k memo' db1 ∧ ∀ db0 ∈ X.db :: past, KeySeen A.engine k memo' db0 by
          obtain ⟨memo', h2, h3, h4⟩ := h
          refine ⟨memo', ⟨hall, ?_, ?_, ?_, ?_⟩⟩ <;> rw [hgo]
          · exact h3.congr (fun t r => by rw [hrows]) (by rw [hdraws]; exact Nat.le_refl _)
          · exact fun db0 h0 => ⟨h4 db0 h0, by simp only [hdraws]; exact Nat.le_trans (same.before db0 h0).2 h2⟩
          · exact fun j U hU => (hnone j U hU).elim
          · exact fun j _ U _ hU _ => (hnone j U hU).elim
        rcases saveObject_update (S := S) hA.pks hA.models h1 with rfl | ⟨om, hom, r, mem, hr, hnn, hp, _, he, hKk, hch⟩
        · exact ⟨memo, Nat.le_refl _, hX.now, fun db0 h0 => (same.before db0 h0).1⟩
        · have hst1 : k.Steady X.db db1 := by unfold KeyField.Steady at hst ⊢; rw [← hrows]; exact hst
          have hren1 : k.Renewed A.engine (X.db :: past) X.db db1 := by unfold KeyField.Renewed at hren ⊢; rw [← hrows]; exact hren
          have hL : LegalStmt A.engine k.relations X.db (saveUpdate om mem) := by
            intro p hp ht x r
            simp [show p.2 ∉ om.saved.map SaveField.col from hA.relations om hom p hp ht]
          have hS : KeyLegal k X.db (saveUpdate om mem) := by
            intro ht
            left
            refine filter_pk ?_
            have := hX.ok.keys om.model.table
            rw [hA.models om hom] at this
            exact this
          exact ⟨_, stmt_seen hA hX.ok.keys hX.now hL hS (hs om hom r (List.mem_of_find?_eq_some hr) mem hp) he hst1 hren1 same.before⟩

/-- All committed states of a schedule agree on what keys stand for. -/
theorem serial_moves (hA : KeySettingAll A S D k) : ∀ (μs : List Move) {past : List Db} {memo : Memo} {X : DbServer}, SerialState A S k memo past X →
    KeyOrderlyAll A S k past μs X → Serial A S μs X →
    ∃ memo', (∀ db ∈ past, KeySeen A.engine k memo' db) ∧ ∀ n, KeySeen A.engine k memo' (A.moves S (μs.take n) X).db
  | [], past, memo, X, hX, _, _ => ⟨memo, fun db h => (hX.before db h).1, fun n => by simpa [App.moves] using hX.now⟩
  | μ :: μs, past, memo, X, hX, ho, hO => by
    have hstep : ∃ memo1, SerialState A S k memo1 (X.db :: past) (A.move S X μ) := by
      cases μ with
      | stmt i s =>
        obtain ⟨⟨h1, h2, h3, h4, h5⟩, _⟩ := ho
        exact serial_stmt hA hX h1 h2 h3 h4 h5 hO.1
      | commit i => exact ⟨memo, serial_commit hX i⟩
      | rollback i => exact ⟨memo, serial_close hX i⟩
      | flushOne m => exact serial_flushOne hA hX ho.1.1 ho.1.2 hO.1
    obtain ⟨memo1, h1⟩ := hstep
    obtain ⟨memo', h2, h3⟩ := serial_moves hA μs h1 ho.2 hO.2
    refine ⟨memo', fun db h => h2 db (List.mem_cons_of_mem _ h), fun n => ?_⟩
    cases n with
    | zero => exact h2 X.db (List.mem_cons_self ..)
    | succ n => exact h3 n

/-- On sqlite there is one writer at a time. -/
theorem serial_sqlite (hb : A.engine.backend = .sqlite) : ∀ (μs : List Move) {X : DbServer}, HoldsLocks X → Serial A S μs X
  | [], _, _ => trivial
  | μ :: μs, X, h => by
    refine ⟨?_, serial_sqlite hb μs (locked_move h μ)⟩
    cases μ with
    | stmt i s =>
      simp only [App.move]
      cases he : A.exec s (X.sight S i).1 with
      | error e => exact .inl rfl
      | ok v =>
        simp only
        split
        · exact .inl rfl
        · rename_i hw
          split
          · exact .inl rfl
          · rename_i hrows
            refine .inr fun j T hT => Classical.byContradiction fun hne => ?_
            have := free_of_waits (Bool.eq_false_iff.2 hw) (by simpa using hne) hT
            rw [hb] at this
            simp only [Locks.conflict, Bool.and_eq_false_iff, Bool.not_eq_false', List.isEmpty_iff] at this
            rcases this with h1 | h1
            · exact hrows h1
            · exact h T (List.mem_of_getElem? hT) h1
    | flushOne m =>
      simp only [App.move]
      split
      · exact .inl rfl
      · rename_i hw
        refine .inr fun T hT => ?_
        obtain ⟨j, hj⟩ := List.getElem?_of_mem hT
        have := free_of_waits (Bool.eq_false_iff.2 hw) (by simp) hj
        rw [hb] at this
        simp only [Locks.conflict, Bool.and_eq_false_iff, Bool.not_eq_false', List.isEmpty_iff, Locks.append, markLock] at this
        rcases this with h1 | h1
        · simp at h1
        · exact h T hT h1
    | _ => trivial

end

end Denorm
