import Verif.Spec.TxnKey
import Verif.Lemmas.TxnAgg
import Verif.Lemmas.Cached
/-!
# Cache keys among transactions: lemmas
-/
namespace Denorm

/-! ## Related rows that refer to the instance -/

/-- The rows that refer to the instance with key `κ`. -/
def content (d : DepRead) (db : Db) (κ : Val) : List (List Val) := seen d.reads ((db.rows d.dep.otherTable).filter fun o => Val.sqlEq (d.dep.target o) κ)

theorem related_content {k : KeyField} (hv : ByValue k.relations) (hthis : ∀ d ∈ k.deps, d.dep.this = k.model) {d : DepRead} (hd : d ∈ k.deps) (db : Db) (r : Row) :
    seen d.reads (relatedRows d.dep db r) = content d db (r k.model.pk) := by
  unfold content
  congr 1
  rcases hv d hd with ⟨f, hf⟩ | ⟨g, hf⟩
  · simp only [relatedRows, hf, Dep.otherTable, Dep.target, hthis d hd]
  · simp only [relatedRows, hf, Dep.otherTable, Dep.target, hthis d hd]
    refine List.filter_congr fun o _ => ?_
    by_cases h : Val.sqlEq (o (g.ctFieldName ++ "_id")) (.int k.model.ct) = true
    · rw [if_pos h, h, Bool.true_and]
    · rw [if_neg h, Bool.eq_false_iff.2 h, Bool.false_and]
      exact (Bool.eq_false_iff.2 fun e => by
        obtain ⟨h1, h2⟩ := Val.sqlEq_iff.1 e
        exact h2 rfl).symm

theorem content_none {k : KeyField} {db : Db} (h : k.Refer db) {d : DepRead} (hd : d ∈ k.deps) {κ : Val} (hκ : ∀ r ∈ db.rows k.model.table, r k.model.pk ≠ κ) :
    content d db κ = [] := by
  unfold content
  rw [show ((db.rows d.dep.otherTable).filter fun o => Val.sqlEq (d.dep.target o) κ) = [] from ?_]
  · rfl
  · rw [List.filter_eq_nil_iff]
    intro o ho hs
    obtain ⟨h1, h2⟩ := Val.sqlEq_iff.1 hs
    obtain ⟨r, hr, he⟩ := h d hd o ho (h1 ▸ h2)
    exact hκ r hr (he.trans h1)

theorem mem_content {d : DepRead} {db : Db} {κ : Val} {x : List Val} :
    x ∈ content d db κ ↔ ∃ o ∈ db.rows d.dep.otherTable, Val.sqlEq (d.dep.target o) κ = true ∧ d.reads.map o = x := by
  simp only [content, seen, List.mem_map, List.mem_filter, and_assoc]

theorem map_at {c : Col} : ∀ {l : List Col} {o o' : Row}, c ∈ l → l.map o = l.map o' → o c = o' c
  | a :: l, o, o', hc, h => by
    simp only [List.map_cons, List.cons.injEq] at h
    rcases List.mem_cons.1 hc with rfl | hc
    · exact h.1
    · exact map_at hc h.2

section
variable {S : Schema} {base view cur : Db}

theorem content_merge_cur (hM : MergeableDb S base view cur) {d : DepRead} (hk : S.key d.dep.otherTable ∈ d.reads) {κ : Val}
    (h : ∀ x, x ∈ content d base κ ↔ x ∈ content d view κ) (x : List Val) : x ∈ content d (Db.merge S base view cur) κ ↔ x ∈ content d cur κ := by
  have hMo := hM d.dep.otherTable
  constructor
  · intro hx
    obtain ⟨o, ho, hp, rfl⟩ := mem_content.1 hx
    rcases hMo.apart (o (S.key d.dep.otherTable)) with hs | hs
    · exact mem_content.2 ⟨o, (merge_sameAt_cur hMo hs o rfl).1 ho, hp, rfl⟩
    · have ho' := (merge_sameAt_view hMo hs o rfl).1 ho
      obtain ⟨b, hb, hbp, hbe⟩ := mem_content.1 ((h _).2 (mem_content.2 ⟨o, ho', hp, rfl⟩))
      exact mem_content.2 ⟨b, (hs b (map_at hk hbe)).1 hb, hbp, hbe⟩
  · intro hx
    obtain ⟨o, ho, hp, rfl⟩ := mem_content.1 hx
    rcases hMo.apart (o (S.key d.dep.otherTable)) with hs | hs
    · exact mem_content.2 ⟨o, (merge_sameAt_cur hMo hs o rfl).2 ho, hp, rfl⟩
    · have ho' := (hs o rfl).2 ho
      obtain ⟨b, hb, hbp, hbe⟩ := mem_content.1 ((h _).1 (mem_content.2 ⟨o, ho', hp, rfl⟩))
      exact mem_content.2 ⟨b, (merge_sameAt_view hMo hs b (map_at hk hbe)).2 hb, hbp, hbe⟩

theorem content_merge_view (hM : MergeableDb S base view cur) {d : DepRead} (hk : S.key d.dep.otherTable ∈ d.reads) {κ : Val}
    (h : ∀ x, x ∈ content d base κ ↔ x ∈ content d cur κ) (x : List Val) : x ∈ content d (Db.merge S base view cur) κ ↔ x ∈ content d view κ := by
  have hMo := hM d.dep.otherTable
  constructor
  · intro hx
    obtain ⟨o, ho, hp, rfl⟩ := mem_content.1 hx
    rcases hMo.apart (o (S.key d.dep.otherTable)) with hs | hs
    · have ho' := (merge_sameAt_cur hMo hs o rfl).1 ho
      obtain ⟨b, hb, hbp, hbe⟩ := mem_content.1 ((h _).2 (mem_content.2 ⟨o, ho', hp, rfl⟩))
      exact mem_content.2 ⟨b, (hs b (map_at hk hbe)).1 hb, hbp, hbe⟩
    · exact mem_content.2 ⟨o, (merge_sameAt_view hMo hs o rfl).1 ho, hp, rfl⟩
  · intro hx
    obtain ⟨o, ho, hp, rfl⟩ := mem_content.1 hx
    rcases hMo.apart (o (S.key d.dep.otherTable)) with hs | hs
    · have ho' := (hs o rfl).2 ho
      obtain ⟨b, hb, hbp, hbe⟩ := mem_content.1 ((h _).1 (mem_content.2 ⟨o, ho', hp, rfl⟩))
      exact mem_content.2 ⟨b, (merge_sameAt_cur hMo hs b (map_at hk hbe)).2 hb, hbp, hbe⟩
    · exact mem_content.2 ⟨o, (merge_sameAt_view hMo hs o rfl).2 ho, hp, rfl⟩

end

/-! ## What each key stands for -/

/-- What the related rows of an instance are while it has a key: `memo pk key d x` says that `x` is among them. -/
abbrev Memo := Val → Val → DepRead → List Val → Prop

structure KeyFine (E : Engine) (k : KeyField) (memo : Memo) (db : Db) : Prop where
  right : ∀ r ∈ db.rows k.model.table, ∀ d ∈ k.deps, ∀ x, x ∈ content d db (r k.model.pk) ↔ memo (r k.model.pk) (r k.field) d x
  none : ∀ d ∈ k.deps, ∀ κ, (∀ r ∈ db.rows k.model.table, r k.model.pk ≠ κ) → content d db κ = []
  keys : KeysOk k.relations db
  old : ∀ r ∈ db.rows k.model.table, ∀ n, db.draws ≤ n → r k.field ≠ .int (E.rand n)

theorem content_sameAt {E : Engine} {k : KeyField} {memo : Memo} {db db' : Db} (h : KeyFine E k memo db) (h' : KeyFine E k memo db') {κ : Val}
    (hs : SameAt k.model.pk κ (db.rows k.model.table) (db'.rows k.model.table)) {d : DepRead} (hd : d ∈ k.deps) (x : List Val) :
    x ∈ content d db κ ↔ x ∈ content d db' κ := by
  by_cases he : ∃ r ∈ db.rows k.model.table, r k.model.pk = κ
  · obtain ⟨r, hr, rfl⟩ := he
    rw [h.right r hr d hd x, h'.right r ((hs r rfl).1 hr) d hd x]
  · rw [h.none d hd κ fun r hr e => he ⟨r, hr, e⟩, h'.none d hd κ fun r hr e => he ⟨r, (hs r e).2 hr, e⟩]

theorem keyFine_closed {E : Engine} {S : Schema} {k : KeyField} {memo : Memo} (hk : S.key k.model.table = k.model.pk)
    (hr : ∀ d ∈ k.deps, S.key d.dep.otherTable ∈ d.reads) : MergeClosed S (KeyFine E k memo) := by
  intro base view cur hM hb hv hc
  have hMm := hM k.model.table
  have hcur : ∀ κ, SameAt (S.key k.model.table) κ (base.rows k.model.table) (view.rows k.model.table) → ∀ d ∈ k.deps, ∀ x,
      x ∈ content d (Db.merge S base view cur) κ ↔ x ∈ content d cur κ := by
    intro κ hs d hd
    exact content_merge_cur hM (hr d hd) (content_sameAt hb hv (hk ▸ hs) hd)
  have hview : ∀ κ, SameAt (S.key k.model.table) κ (base.rows k.model.table) (cur.rows k.model.table) → ∀ d ∈ k.deps, ∀ x,
      x ∈ content d (Db.merge S base view cur) κ ↔ x ∈ content d view κ := by
    intro κ hs d hd
    exact content_merge_view hM (hr d hd) (content_sameAt hb hc (hk ▸ hs) hd)
  refine ⟨fun r hr d hd x => ?_, fun d hd κ hκ => ?_, fun p hp r hr => ?_, fun r hr n hn => ?_⟩
  · rcases hMm.apart (r k.model.pk) with hs | hs
    · rw [hcur _ hs d hd x]
      exact hc.right r ((merge_sameAt_cur hMm hs r (by rw [hk])).1 hr) d hd x
    · rw [hview _ hs d hd x]
      exact hv.right r ((merge_sameAt_view hMm hs r (by rw [hk])).1 hr) d hd x
  · refine List.eq_nil_iff_forall_not_mem.2 fun x hx => ?_
    rcases hMm.apart κ with hs | hs
    · have := hc.none d hd κ fun r hr e => hκ r ((merge_sameAt_cur hMm hs r (by rw [hk]; exact e)).2 hr) e
      have hx' := (hcur _ hs d hd x).1 hx
      rw [this] at hx'
      simp at hx'
    · have := hv.none d hd κ fun r hr e => hκ r ((merge_sameAt_view hMm hs r (by rw [hk]; exact e)).2 hr) e
      have hx' := (hview _ hs d hd x).1 hx
      rw [this] at hx'
      simp at hx'
  · rcases (hM p.1).apart (r (S.key p.1)) with hs | hs
    · exact hc.keys p hp r ((merge_sameAt_cur (hM p.1) hs r rfl).1 hr)
    · exact hv.keys p hp r ((merge_sameAt_view (hM p.1) hs r rfl).1 hr)
  · have hn' : max cur.draws view.draws ≤ n := hn
    rcases hMm.apart (r (S.key k.model.table)) with hs | hs
    · exact hc.old r ((merge_sameAt_cur hMm hs r rfl).1 hr) n (by omega)
    · exact hv.old r ((merge_sameAt_view hMm hs r rfl).1 hr) n (by omega)

/-! ## One statement -/

theorem exec_none {E : Engine} {fuel : Nat} {s : Stmt} {db db' : Db} (h : s.ops db = []) (he : E.exec fuel s db = .ok db') : db' = db := by
  simp only [Engine.exec, Engine.start, h] at he
  have hw : writes E.backend .top s.table [] = [] ∨ writes E.backend .top s.table [] = [.write .top s.table []] := by
    cases E.backend <;> simp [writes]
  rcases hw with hw | hw <;> rw [hw] at he
  · cases fuel <;> simp only [Engine.drain, Except.ok.injEq] at he <;> exact he.symm
  · cases fuel with
    | zero => simp [Engine.drain] at he
    | succ n => cases n <;> simp [Engine.drain, Engine.step, applyOps] at he <;> exact he.symm

section
variable {E : Engine} {D : List Denorm} {k : KeyField} {fuel : Nat} {s : Stmt} {db db' : Db}

/-- An instance that keeps its key sees the same as before. -/
theorem stmt_sight (hE : Installed E D) (hD : KeyDeclared E.backend D k) (hN : NoReentry E) (hrand : ∀ m n, E.rand m = E.rand n → m = n)
    (hv : ByValue k.relations) (hL : LegalStmt E k.relations db s) (hK : KeysOk k.relations db) (hS : KeyLegal k db s) (hs : k.SparesDraws E db s)
    (hd : Drawn E k db.draws db) (he : E.exec fuel s db = .ok db') {r r' : Row} (hr : r ∈ db.rows k.model.table) (hr' : r' ∈ db'.rows k.model.table)
    (hpk : r k.model.pk = r' k.model.pk) (hkey : r k.field = r' k.field) : k.SameSight db r db' r' := by
  have hs' : KeyStmt E k db.draws s := by cases s <;> exact hs
  have hg : ∀ d ∈ k.deps, ∀ g, d.dep.rel ≠ .backwardM2M (.generic g) := by
    intro d hd g hg
    rcases hv d hd with ⟨f, h⟩ | ⟨f, h⟩ <;> rw [h] at hg <;> cases hg
  have hfks : k.fks = [] := by
    rw [KeyField.fks, List.flatMap_eq_nil_iff]
    intro d hd
    rcases hv d hd with ⟨f, h⟩ | ⟨f, h⟩ <;> simp [Dep.ownKeys, h]
  have hG : SeenProp k [] fun db2 r2 => k.SameSight db r db2 r2 := by
    intro db1 db2 a b _ _ h3 h4 d hd x
    rw [h3 d hd]
    exact h4 d hd x
  have hsame : ∀ r1 : Row, r1 k.model.pk = r k.model.pk → k.SameSight db r db r1 := by
    intro r1 h1 d hd x
    rw [related_content hv hD.this hd, related_content hv hD.this hd, h1]
  have hfin : (CalmStmt k [] (r k.model.pk) (fun db2 r2 => k.SameSight db r db2 r2) (fun _ => True) s ∧
        ∀ r1 ∈ db.rows k.model.table, r1 k.model.pk = r k.model.pk → k.SameSight db r db r1 ∧ True) ∨
      (∃ op, s.ops db = [op] ∧ ∀ r1 ∈ (applyOp E s.table op db).1.rows k.model.table, r1 k.model.pk = r k.model.pk → k.SameSight db r db r1 ∧ True) →
      k.SameSight db r db' r' := by
    intro h0
    rcases holds_or_drawn hE hD hN hrand hG hg (by simp) hL hK hS hs' hd he h0 hr' hpk.symm with h | ⟨n, h1, _, h3⟩
    · exact h.1
    · exact absurd (hkey.trans h3) (hd.old r hr n h1)
  cases s with
  | insert t rs =>
    refine hfin (.inl ⟨fun ht r1 h1 h2 => ?_, fun r1 _ h2 => ⟨hsame r1 h2, trivial⟩⟩)
    exact absurd h2.symm ((hS ht).1 r1 h1 r (ht ▸ hr))
  | delete t w => exact hfin (.inl ⟨trivial, fun r1 _ h2 => ⟨hsame r1 h2, trivial⟩⟩)
  | update t w σ =>
    by_cases ht : t = k.model.table
    · rcases hS ht with h1 | h1
      · have hlen : (targetsOf (db.rows t) w).length ≤ 1 := by rw [targetsOf_length]; exact h1
        cases hop : (Stmt.update t w σ).ops db with
        | nil =>
          rw [exec_none hop he] at hr' ⊢
          exact hsame r' hpk.symm
        | cons op ops =>
          have : ops = [] := by
            have h2 : ((Stmt.update t w σ).ops db).length ≤ 1 := by simpa [Stmt.ops] using hlen
            rw [hop] at h2
            simpa using h2
          subst this
          exact hfin (.inr ⟨op, hop, fun r1 _ h2 => ⟨hsame r1 h2, trivial⟩⟩)
      · refine hfin (.inl ⟨fun _ x r1 => ⟨(h1 x r1).1, fun c hc => ?_⟩, fun r1 _ h2 => ⟨hsame r1 h2, trivial⟩⟩)
        rw [hfks] at hc
        simp at hc
    · exact hfin (.inl ⟨fun h => absurd h ht, fun r1 _ h2 => ⟨hsame r1 h2, trivial⟩⟩)

end

/-! ## All sessions -/

/-- The key of `r'` is one that the database has just drawn, or one that the instance had in none of the states `past`. -/
def NewlyKeyed (E : Engine) (k : KeyField) (past : List Db) (db : Db) (r' : Row) : Prop :=
  (∃ n, db.draws ≤ n ∧ r' k.field = .int (E.rand n)) ∨
  ∀ old ∈ past, ∀ r ∈ old.rows k.model.table, r k.model.pk = r' k.model.pk → r k.field ≠ r' k.field

/-- What is known after the instances of `v` have got their keys. -/
def newMemo (k : KeyField) (v : Db) (memo : Memo) : Memo := fun κ K d x =>
  (∃ r ∈ v.rows k.model.table, r k.model.pk = κ ∧ r k.field = K ∧ x ∈ content d v κ) ∨
  (¬ ∃ r ∈ v.rows k.model.table, r k.model.pk = κ ∧ r k.field = K) ∧ memo κ K d x

section
variable {A : App} {S : Schema} {D : List Denorm} {k : KeyField} {memo : Memo}

theorem keyFine_new {v : Db} (hR : k.Refer v) (hK : KeysOk k.relations v) (ho : ∀ r ∈ v.rows k.model.table, ∀ n, v.draws ≤ n → r k.field ≠ .int (A.engine.rand n)) :
    KeyFine A.engine k (newMemo k v memo) v where
  right r hr d hd x := by
    constructor
    · exact fun hx => .inl ⟨r, hr, rfl, rfl, hx⟩
    · rintro (⟨_, _, _, _, hx⟩ | ⟨hn, _⟩)
      · exact hx
      · exact absurd ⟨r, hr, rfl, rfl⟩ hn
  none d hd κ hκ := content_none hR hd hκ
  keys := hK
  old := ho

/-- What is known of the keys of `db0` stays as it is if the instances that have such keys in `v` see what they saw before. -/
theorem keyFine_agree {v db0 : Db} (h : KeyFine A.engine k memo db0)
    (ha : ∀ r0 ∈ db0.rows k.model.table, ∀ r' ∈ v.rows k.model.table, r' k.model.pk = r0 k.model.pk → r' k.field = r0 k.field →
      ∀ d ∈ k.deps, ∀ x, x ∈ content d v (r' k.model.pk) ↔ memo (r' k.model.pk) (r' k.field) d x) : KeyFine A.engine k (newMemo k v memo) db0 where
  right r hr d hd x := by
    rw [h.right r hr d hd x]
    constructor
    · intro hm
      by_cases he : ∃ r' ∈ v.rows k.model.table, r' k.model.pk = r k.model.pk ∧ r' k.field = r k.field
      · obtain ⟨r', h1, h2, h3⟩ := he
        refine .inl ⟨r', h1, h2, h3, ?_⟩
        rw [← h2]
        refine (ha r hr r' h1 h2 h3 d hd x).2 ?_
        rw [h2, h3]
        exact hm
      · exact .inr ⟨he, hm⟩
    · rintro (⟨r', h1, h2, h3, hx⟩ | ⟨_, hm⟩)
      · have := (ha r hr r' h1 h2 h3 d hd x).1 (by rw [h2]; exact hx)
        rw [h2, h3] at this
        exact this
      · exact hm
  none := h.none
  keys := h.keys
  old := h.old

structure KeyState (A : App) (S : Schema) (k : KeyField) (memo : Memo) (past : List Db) (X : DbServer) : Prop where
  ok : AllOk S (KeyFine A.engine k memo) X
  before : ∀ db ∈ past, KeyFine A.engine k memo db ∧ db.draws ≤ X.db.draws
  base : ∀ (i : Nat) T, X.sessions[i]? = some (some T) → T.base ∈ X.db :: past

theorem drawn_of {db : Db} (hk : S.key k.model.table = k.model.pk) (hU : KeysDistinct S db) (h : KeyFine A.engine k memo db) : Drawn A.engine k db.draws db where
  uniq := by have := hU k.model.table; rw [hk] at this; exact this
  old := h.old
  inj r hr _ _ n hn e := absurd e (h.old r hr n hn)

/-- One statement: what is known afterwards, and which instances have new keys. -/
theorem stmt_fine (hA : KeySetting A S D k) {db v : Db} {s : Stmt} (hU : KeysDistinct S db) (h : KeyFine A.engine k memo db) (hL : LegalStmt A.engine k.relations db s)
    (hS : KeyLegal k db s) (hs : k.SparesDraws A.engine db s) (he : A.exec s db = .ok v) (hR : k.Refer v) {past : List Db} (hn : k.Renewed A.engine past db v) :
    KeyFine A.engine k (newMemo k v memo) v ∧ db.draws ≤ v.draws ∧
      ∀ r' ∈ v.rows k.model.table, (∀ d ∈ k.deps, ∀ x, x ∈ content d v (r' k.model.pk) ↔ memo (r' k.model.pk) (r' k.field) d x) ∨ NewlyKeyed A.engine k past db r' := by
  have he' := engine_of_exec he
  have hd := drawn_of hA.key hU h
  have hs' : KeyStmt A.engine k db.draws s := by cases s <;> exact hs
  obtain ⟨⟨h1, h2, h3⟩, _⟩ := drawn_exec hA.installed hA.declared hA.noReentry hA.rand hL h.keys hS hs' (Nat.le_refl _) hd he'
  refine ⟨keyFine_new hR h3 h1.old, h2, fun r' hr' => ?_⟩
  rcases hn r' hr' with ⟨r, hr, hpk, hkey⟩ | hn | hn
  · left
    intro d hdd x
    have := stmt_sight hA.installed hA.declared hA.noReentry hA.rand hA.byValue hL h.keys hS hs hd he' hr hr' hpk hkey d hdd x
    rw [related_content hA.byValue hA.declared.this hdd, related_content hA.byValue hA.declared.this hdd] at this
    rw [← this, h.right r hr d hdd x, hpk, hkey]
  · exact .inr (.inl hn)
  · exact .inr (.inr hn)

theorem sight_draws (X : DbServer) (i : Nat) : X.db.draws ≤ (X.sight S i).1.draws := by
  rcases sight_cases X S i with ⟨T, _, h⟩ | h <;> rw [h]
  · exact Nat.le_max_left ..
  · exact Nat.le_refl _

theorem keyState_stmt (hA : KeySetting A S D k) {past : List Db} {X : DbServer} (hX : KeyState A S k memo past X) {i : Nat} {s : Stmt}
    (hL : LegalStmt A.engine k.relations (X.sight S i).1 s) (hKk : KeepsKeys S (X.sight S i).1 s) (hS : KeyLegal k (X.sight S i).1 s)
    (hs : k.SparesDraws A.engine (X.sight S i).1 s)
    (hn : ∀ v, A.exec s (X.sight S i).1 = .ok v → k.Refer v ∧ k.Renewed A.engine ((X.sight S i).1 :: X.db :: past) (X.sight S i).1 v) :
    ∃ memo', KeyState A S k memo' (X.db :: past) (A.move S X (.stmt i s)) := by
  have hC := fun memo => keyFine_closed (E := A.engine) (memo := memo) hA.key hA.reads
  have same : KeyState A S k memo (X.db :: past) X := by
    refine ⟨hX.ok, fun db hdb => ?_, fun i T hT => List.mem_cons_of_mem _ (hX.base i T hT)⟩
    rcases List.mem_cons.1 hdb with rfl | hdb
    · exact ⟨hX.ok.now, Nat.le_refl _⟩
    · exact hX.before db hdb
  cases he : A.exec s (X.sight S i).1 with
  | error e =>
    refine ⟨memo, ?_⟩
    simp only [App.move, he]
    exact same
  | ok v =>
    by_cases hstay : X.waits A.engine.backend (some i) (locksOf S (A.changesOf s (X.sight S i).1)) = true ∨ (locksOf S (A.changesOf s (X.sight S i).1)).rows = []
    · refine ⟨memo, ?_⟩
      simp only [App.move, he]
      rcases hstay with h | h
      · rw [if_pos h]; exact same
      · split
        · exact same
        · exact same
    · simp only [not_or, Bool.not_eq_true] at hstay
      obtain ⟨hw, hrows⟩ := hstay
      obtain ⟨g1, g2, g3⟩ := allOk_sight (hC memo) hX.ok i
      obtain ⟨hR, hren⟩ := hn v he
      obtain ⟨f1, f2, f3⟩ := stmt_fine hA g1 g2 hL hS hs he hR hren
      have hle := sight_draws (S := S) X i
      -- instances with new keys were not there with these keys
      have hnot : ∀ r' ∈ v.rows k.model.table, NewlyKeyed A.engine k ((X.sight S i).1 :: X.db :: past) (X.sight S i).1 r' →
          ∀ db0, KeyFine A.engine k memo db0 → (db0 = (X.sight S i).1 ∨ db0 ∈ X.db :: past) → db0.draws ≤ (X.sight S i).1.draws →
          ∀ r0 ∈ db0.rows k.model.table, r' k.model.pk = r0 k.model.pk → r' k.field = r0 k.field → False := by
        rintro r' hr' (⟨n, h1, h2⟩ | h1) db0 hf hmem hdr r0 h0 hpk hkey
        · exact hf.old r0 h0 n (by omega) (hkey.symm.trans h2)
        · refine h1 db0 ?_ r0 h0 hpk.symm hkey.symm
          rcases hmem with rfl | hmem
          · exact List.mem_cons_self ..
          · exact List.mem_cons_of_mem _ hmem
      have hold : ∀ db0, KeyFine A.engine k memo db0 → (db0 = (X.sight S i).1 ∨ db0 ∈ X.db :: past) → db0.draws ≤ (X.sight S i).1.draws →
          KeyFine A.engine k (newMemo k v memo) db0 := by
        intro db0 hf hmem hdr
        refine keyFine_agree hf fun r0 h0 r' hr' hpk hkey => ?_
        rcases f3 r' hr' with h | h
        · exact h
        · exact absurd (hnot r' hr' h db0 hf hmem hdr r0 h0 hpk hkey) id
      have hpast : ∀ db0 ∈ X.db :: past, KeyFine A.engine k memo db0 ∧ db0.draws ≤ X.db.draws := fun db0 h => same.before db0 h
      have hview : ∀ (j : Nat) U, X.sessions[j]? = some (some U) → KeyFine A.engine k (newMemo k v memo) U.view := by
        intro j U hU
        have hs' := hX.ok.sessions j U hU
        refine keyFine_agree hs'.pview fun r0 h0 r' hr' hpk hkey => ?_
        rcases f3 r' hr' with h | h
        · exact h
        · exfalso
          have hb := hpast _ (hX.base j U hU)
          by_cases hl : (k.model.table, r0 k.model.pk) ∈ U.locks.rows
          · by_cases hij : i = j
            · -- the session's own rows
              subst hij
              have : (X.sight S i).1 = Db.merge S U.base U.view X.db := by
                rcases sight_cases X S i with ⟨T, h1, h2⟩ | h2
                · rw [hU] at h1
                  simp only [Option.some.injEq] at h1
                  rw [h2, h1]
                · simp only [DbServer.sight, hU]
              have hM := hs'.mergeable hX.ok.keys k.model.table
              have hin := (merge_sameAt_view hM (hs'.inside _ _ hl) r0 (by rw [hA.key])).2 h0
              refine hnot r' hr' h _ g2 (.inl rfl) (Nat.le_refl _) r0 ?_ hpk hkey
              rw [this]
              exact hin
            · -- rows that another session has written
              have hlock : (k.model.table, r' k.model.pk) ∈ (locksOf S (A.changesOf s (X.sight S i).1)).rows := by
                apply Classical.byContradiction
                intro hnl
                have := (exec_sameAt he hnl r' (by rw [hA.key])).2 hr'
                exact hnot r' hr' h _ g2 (.inl rfl) (Nat.le_refl _) r' this rfl rfl
              exact apart_of_free (free_of_waits hw (by simpa using Ne.symm hij) hU) _ hlock (hpk ▸ hl)
          · have hin := (hs'.outside _ _ hl r0 (by rw [hA.key])).2 h0
            exact hnot r' hr' h _ hb.1 (.inr (hX.base j U hU)) (by omega) r0 hin hpk hkey
      have hX' : AllOk S (KeyFine A.engine k (newMemo k v memo)) X := by
        refine ⟨hX.ok.keys, hold _ hX.ok.now (.inr (List.mem_cons_self ..)) hle, fun j U hU => ?_, hX.ok.apart⟩
        have hs' := hX.ok.sessions j U hU
        have hb := hpast _ (hX.base j U hU)
        exact ⟨hs'.nbase, hs'.nview, hold _ hb.1 (.inr (hX.base j U hU)) (by omega), hview j U hU, hs'.outside, hs'.inside⟩
      have hgo : A.move S X (.stmt i s) =
          ⟨X.db, X.sessions.set i (some ⟨X.db, v, (locksOf S (A.changesOf s (X.sight S i).1)).append (X.sight S i).2⟩)⟩ := by
        simp only [App.move, he]
        rw [if_neg (by rw [hw]; simp), if_neg hrows]
      refine ⟨newMemo k v memo, ?_, ?_, ?_⟩
      · refine allOk_stmt (hC _) hX' hA.noReentry hA.unmanaged hKk fun v' hv' _ => ?_
        rw [he] at hv'
        simp only [Except.ok.injEq] at hv'
        exact hv' ▸ f1
      · rw [hgo]
        intro db0 h0
        have := hpast db0 h0
        exact ⟨hold db0 this.1 (.inr h0) (by omega), this.2⟩
      · rw [hgo]
        intro j T hT
        rcases getElem?_set_some hT with ⟨_, h1⟩ | ⟨_, h1⟩
        · simp only [Option.some.injEq] at h1
          rw [← h1]
          exact List.mem_cons_self ..
        · exact List.mem_cons_of_mem _ (hX.base j T h1)

theorem keyState_close {past : List Db} {X : DbServer} (hX : KeyState A S k memo past X) (i : Nat) :
    KeyState A S k memo (X.db :: past) ⟨X.db, X.sessions.set i none⟩ := by
  refine ⟨allOk_close hX.ok i, fun db hdb => ?_, fun j T hT => ?_⟩
  · rcases List.mem_cons.1 hdb with rfl | hdb
    · exact ⟨hX.ok.now, Nat.le_refl _⟩
    · exact hX.before db hdb
  · rcases getElem?_set_some hT with ⟨_, h1⟩ | ⟨_, h1⟩
    · simp at h1
    · exact List.mem_cons_of_mem _ (hX.base j T h1)

theorem keyState_commit (hA : KeySetting A S D k) {past : List Db} {X : DbServer} (hX : KeyState A S k memo past X) (i : Nat) :
    KeyState A S k memo (X.db :: past) (A.move S X (.commit i)) := by
  have hC := keyFine_closed (E := A.engine) (memo := memo) hA.key hA.reads
  have hle := sight_draws (S := S) X i
  refine ⟨allOk_commit hC hX.ok i, fun db hdb => ?_, fun j T hT => ?_⟩
  · simp only [App.move]
    rcases List.mem_cons.1 hdb with rfl | hdb
    · exact ⟨hX.ok.now, hle⟩
    · have := hX.before db hdb
      exact ⟨this.1, by omega⟩
  · simp only [App.move] at hT
    rcases getElem?_set_some hT with ⟨_, h1⟩ | ⟨_, h1⟩
    · simp at h1
    · exact List.mem_cons_of_mem _ (hX.base j T h1)

theorem keyFine_rows {db db' : Db} (hr : db'.rows = db.rows) (hd : db'.draws = db.draws) (h : KeyFine A.engine k memo db) : KeyFine A.engine k memo db' := by
  have hc : ∀ d κ, content d db' κ = content d db κ := fun d κ => by simp only [content, hr]
  exact ⟨by rw [hr]; intro r hr d hd; rw [hc]; exact h.right r hr d hd, by rw [hr]; intro d hd κ; rw [hc]; exact h.none d hd κ,
    by unfold KeysOk; rw [hr]; exact h.keys, by rw [hr, hd]; exact h.old⟩

theorem keyState_flushOne (hA : KeySetting A S D k) {past : List Db} {X : DbServer} (hX : KeyState A S k memo past X) {m : Mark}
    (hs : ∀ om ∈ A.models, ∀ r ∈ X.db.rows om.model.table, ∀ mem, preSaveAll A om.model X.db false om.saved r = .ok mem → k.SparesDraws A.engine X.db (saveUpdate om mem))
    (hn : ∀ db', A.flushOne m X.db = .ok db' → k.Refer db' ∧ k.Renewed A.engine (X.db :: past) X.db db') :
    ∃ memo', KeyState A S k memo' (X.db :: past) (A.move S X (.flushOne m)) := by
  have same : KeyState A S k memo (X.db :: past) X := by
    refine ⟨hX.ok, fun db hdb => ?_, fun i T hT => List.mem_cons_of_mem _ (hX.base i T hT)⟩
    rcases List.mem_cons.1 hdb with rfl | hdb
    · exact ⟨hX.ok.now, Nat.le_refl _⟩
    · exact hX.before db hdb
  by_cases hw : A.flushWaits S m X = true
  · refine ⟨memo, ?_⟩
    simp only [App.move]
    rw [if_pos hw]
    exact same
  · cases hf : A.flushOne m X.db with
    | error e =>
      refine ⟨memo, ?_⟩
      simp only [App.move, hf]
      rw [if_neg hw]
      exact same
    | ok db' =>
      obtain ⟨hR, hren⟩ := hn db' hf
      have hgo : A.move S X (.flushOne m) = ⟨db', X.sessions⟩ := by
        simp only [App.move, hf]
        rw [if_neg hw]
      have hf0 := hf
      simp only [App.flushOne] at hf
      cases h1 : A.saveObject m X.db with
      | error e => rw [h1] at hf; simp at hf
      | ok db1 =>
        rw [h1] at hf
        simp only [Except.ok.injEq] at hf
        have hrows : db'.rows = db1.rows := by rw [← hf]; rfl
        have hdraws : db'.draws = db1.draws := by rw [← hf]; rfl
        rcases saveObject_update (S := S) hA.pks hA.models h1 with rfl | ⟨om, hom, r, mem, hr, hnn, hp, _, he, hKk, hch⟩
        · -- nothing was saved
          refine ⟨memo, ?_, ?_, ?_⟩
          · exact allOk_flushOne hX.ok hA.noReentry hA.unmanaged hA.pks hA.models fun d hd _ => by
              rw [hf0] at hd
              simp only [Except.ok.injEq] at hd
              exact hd ▸ keyFine_rows hrows hdraws hX.ok.now
          · rw [hgo]
            intro db0 h0
            have := same.before db0 h0
            exact ⟨this.1, by simp only [hdraws]; exact this.2⟩
          · rw [hgo]
            intro i T hT
            exact List.mem_cons_of_mem _ (hX.base i T hT)
        · have hR1 : k.Refer db1 := by unfold KeyField.Refer at hR ⊢; rw [← hrows]; exact hR
          have hren1 : k.Renewed A.engine (X.db :: past) X.db db1 := by unfold KeyField.Renewed at hren ⊢; rw [← hrows]; exact hren
          have hL : LegalStmt A.engine k.relations X.db (saveUpdate om mem) := by
            intro p hp ht x r
            simp [show p.2 ∉ om.saved.map SaveField.col from hA.relations om hom p hp ht]
          have hS : KeyLegal k X.db (saveUpdate om mem) := by
            intro ht
            left
            refine filter_pk ?_
            have := hX.ok.keys om.model.table
            rw [hA.models om hom] at this
            exact this
          obtain ⟨f1, f2, f3⟩ := stmt_fine hA hX.ok.keys hX.ok.now hL hS (hs om hom r (List.mem_of_find?_eq_some hr) mem hp) he hR1 hren1
          have hnot : ∀ r' ∈ db1.rows k.model.table, NewlyKeyed A.engine k (X.db :: past) X.db r' →
              ∀ db0 ∈ X.db :: past, ∀ r0 ∈ db0.rows k.model.table, r' k.model.pk = r0 k.model.pk → r' k.field = r0 k.field → False := by
            rintro r' hr' (⟨n, h1, h2⟩ | h1) db0 hmem r0 h0 hpk hkey
            · have := same.before db0 hmem
              exact this.1.old r0 h0 n (by omega) (hkey.symm.trans h2)
            · exact h1 db0 hmem r0 h0 hpk.symm hkey.symm
          have hold : ∀ db0 ∈ X.db :: past, KeyFine A.engine k (newMemo k db1 memo) db0 := by
            intro db0 hmem
            refine keyFine_agree (same.before db0 hmem).1 fun r0 h0 r' hr' hpk hkey => ?_
            rcases f3 r' hr' with h | h
            · exact h
            · exact absurd (hnot r' hr' h db0 hmem r0 h0 hpk hkey) id
          have hview : ∀ (j : Nat) U, X.sessions[j]? = some (some U) → KeyFine A.engine k (newMemo k db1 memo) U.view := by
            intro j U hU
            have hs' := hX.ok.sessions j U hU
            refine keyFine_agree hs'.pview fun r0 h0 r' hr' hpk hkey => ?_
            rcases f3 r' hr' with h | h
            · exact h
            · exfalso
              by_cases hl : (k.model.table, r0 k.model.pk) ∈ U.locks.rows
              · have hlock : (k.model.table, r' k.model.pk) ∈ (locksOf S (A.changesOf (saveUpdate om mem) X.db)).rows := by
                  apply Classical.byContradiction
                  intro hnl
                  have := (exec_sameAt he hnl r' (by rw [hA.key])).2 hr'
                  exact hnot r' hr' h X.db (List.mem_cons_self ..) r' this rfl rfl
                have hfree := free_of_waits (Bool.eq_false_iff.2 hw) (by simp) hU
                exact apart_of_free hfree _ (by
                  simp only [Locks.append, List.mem_append, hch]
                  exact .inl hlock) (hpk ▸ hl)
              · have hin := (hs'.outside _ _ hl r0 (by rw [hA.key])).2 h0
                exact hnot r' hr' h _ (hX.base j U hU) r0 hin hpk hkey
          have hX' : AllOk S (KeyFine A.engine k (newMemo k db1 memo)) X := by
            refine ⟨hX.ok.keys, hold _ (List.mem_cons_self ..), fun j U hU => ?_, hX.ok.apart⟩
            have hs' := hX.ok.sessions j U hU
            exact ⟨hs'.nbase, hs'.nview, hold _ (hX.base j U hU), hview j U hU, hs'.outside, hs'.inside⟩
          refine ⟨newMemo k db1 memo, ?_, ?_, ?_⟩
          · exact allOk_flushOne hX' hA.noReentry hA.unmanaged hA.pks hA.models fun d hd _ => by
              rw [hf0] at hd
              simp only [Except.ok.injEq] at hd
              exact hd ▸ keyFine_rows hrows hdraws f1
          · rw [hgo]
            intro db0 h0
            have := same.before db0 h0
            exact ⟨hold db0 h0, by simp only [hdraws]; omega⟩
          · rw [hgo]
            intro i T hT
            exact List.mem_cons_of_mem _ (hX.base i T hT)

/-- All committed states of a schedule agree on what keys stand for. -/
theorem keyState_moves (hA : KeySetting A S D k) : ∀ (μs : List Move) {past : List Db} {memo : Memo} {X : DbServer}, KeyState A S k memo past X →
    KeyOrderly A S k past μs X → ∃ memo', (∀ db ∈ past, KeyFine A.engine k memo' db) ∧ ∀ n, KeyFine A.engine k memo' (A.moves S (μs.take n) X).db
  | [], past, memo, X, hX, _ => ⟨memo, fun db h => (hX.before db h).1, fun n => by simpa [App.moves] using hX.ok.now⟩
  | μ :: μs, past, memo, X, hX, ho => by
    have hstep : ∃ memo1, KeyState A S k memo1 (X.db :: past) (A.move S X μ) := by
      cases μ with
      | stmt i s =>
        obtain ⟨⟨h1, h2, h3, h4, h5⟩, _⟩ := ho
        exact keyState_stmt hA hX h1 h2 h3 h4 h5
      | commit i => exact ⟨memo, keyState_commit hA hX i⟩
      | rollback i => exact ⟨memo, keyState_close hX i⟩
      | flushOne m => exact keyState_flushOne hA hX ho.1.1 ho.1.2
    obtain ⟨memo1, h1⟩ := hstep
    obtain ⟨memo', h2, h3⟩ := keyState_moves hA μs h1 ho.2
    refine ⟨memo', fun db h => h2 db (List.mem_cons_of_mem _ h), fun n => ?_⟩
    cases n with
    | zero => exact h2 X.db (List.mem_cons_self ..)
    | succ n => exact h3 n

end

end Denorm
