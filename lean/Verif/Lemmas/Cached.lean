import Verif.Spec.Cached
import Verif.Lemmas.CachedInv
import Verif.Lemmas.SaveAgg
import Std.Data.String.ToInt
/-!
# `@cached` attributes: lemmas
-/
namespace Denorm

/-! ## Names of cache entries -/

theorem cacheName_inj {i j : Int} (h : cacheName (.int i) = cacheName (.int j)) : i = j := by
  simp only [cacheName, Val.format] at h
  have h := congrArg String.toList h
  simp only [String.toList_append, List.append_cancel_left_eq] at h
  exact Int.repr_injective (String.toList_inj.1 h)

theorem Cache.set_other {c : Cache} {n n' : String} {v : Val} (h : n' ≠ n) : (c.set n v) n' = c n' := if_neg h
theorem Cache.set_same {c : Cache} {n : String} {v : Val} : (c.set n v) n = some v := if_pos rfl

theorem setCached_other {cb : Callback} {db : Db} {obj : Row} {value : Val} {cache : Cache} {n : String} (h : n ≠ cacheName value) :
    (setCached cb db obj value cache).2 n = cache n := by
  simp only [setCached]
  split
  · split
    · rfl
    · exact Cache.set_other h
  · exact Cache.set_other h

/-- What is under the name afterwards: what was there, or the function's value. -/
theorem setCached_same {cb : Callback} {db : Db} {obj : Row} {value : Val} {cache : Cache} {v : Val}
    (h : (setCached cb db obj value cache).2 (cacheName value) = some v) :
    cache (cacheName value) = some v ∨ v = cb.value db obj := by
  simp only [setCached] at h
  split at h
  · rename_i w hw
    split at h
    · exact .inl h
    · exact .inr (Option.some.inj (Cache.set_same.symm.trans h)).symm
  · exact .inr (Option.some.inj (Cache.set_same.symm.trans h)).symm

theorem setCached_value {cb : Callback} {db : Db} {obj : Row} {value : Val} {cache : Cache} :
    cache (cacheName value) = some (setCached cb db obj value cache).1 ∨ (setCached cb db obj value cache).1 = cb.value db obj := by
  simp only [setCached]
  split
  · rename_i w hw
    split
    · exact .inl hw
    · exact .inr rfl
  · exact .inr rfl

theorem setCached_none {cb : Callback} {db : Db} {obj : Row} {value : Val} {cache : Cache} (h : cache (cacheName value) = none) :
    setCached cb db obj value cache = (cb.value db obj, cache.set (cacheName value) (cb.value db obj)) := by
  simp only [setCached, h]

/-! ## pre_save -/

section
variable {A : App} {cb : Callback} {κ : Int} {m : Model} {db : Db} {add : Bool}

theorem preSaveCached_free : ∀ {fs : List SaveField} {mem : Row} {attr : Val} {cache : Cache}, (∀ f ∈ fs, f.col ≠ cb.field) →
    preSaveCached A cb κ m db add fs mem attr cache =
      (match preSaveAll A m db add fs mem with | .ok mem' => .ok (mem', attr) | .error e => .error e, cache)
  | [], _, _, _, _ => rfl
  | f :: fs, mem, attr, cache, h => by
    rw [preSaveCached, if_neg (h f (List.mem_cons_self ..)), preSaveAll]
    cases f.preSave A m db add mem with
    | ok v => exact preSaveCached_free fun f' hf' => h f' (List.mem_cons_of_mem _ hf')
    | error e => rfl

theorem preSaveCached_append : ∀ {pre post : List SaveField} {mem : Row} {attr : Val} {cache : Cache}, (∀ f ∈ pre, f.col ≠ cb.field) →
    preSaveCached A cb κ m db add (pre ++ post) mem attr cache =
      match preSaveAll A m db add pre mem with
      | .ok mem' => preSaveCached A cb κ m db add post mem' attr cache
      | .error e => (.error e, cache)
  | [], _, _, _, _, _ => rfl
  | f :: fs, post, mem, attr, cache, h => by
    rw [List.cons_append, preSaveCached, if_neg (h f (List.mem_cons_self ..)), preSaveAll]
    cases f.preSave A m db add mem with
    | ok v => exact preSaveCached_append fun f' hf' => h f' (List.mem_cons_of_mem _ hf')
    | error e => rfl

theorem preSaveAll_keeps : ∀ {fs : List SaveField} {mem mem' : Row}, preSaveAll A m db add fs mem = .ok mem' → ∀ c,
    (∀ f ∈ fs, f.col = c → f.kind = .plain) → mem' c = mem c
  | [], mem, mem', h, c, _ => by
    simp only [preSaveAll, Except.ok.injEq] at h
    rw [h]
  | f :: fs, mem, mem', h, c, hc => by
    simp only [preSaveAll] at h
    cases hv : f.preSave A m db add mem with
    | error e => rw [hv] at h; simp at h
    | ok v =>
      rw [hv] at h
      rw [preSaveAll_keeps h c fun g hg => hc g (List.mem_cons_of_mem _ hg)]
      by_cases he : f.col = c
      · rw [SaveField.preSave, hc f (List.mem_cons_self ..) he] at hv
        simp only [Except.ok.injEq] at hv
        simp [Row.set, he, ← hv]
      · simp [Row.set, Ne.symm he]

/-- The `pre_save`s of a model with the `@cached` field: with a new key they raise, or they store the key, and the value of the function
for an instance that agrees with the result in every column that is not changed later. -/
theorem preSaveCached_split {pre post : List SaveField} (hn : ((pre ++ ⟨cb.field, .cacheKey⟩ :: post).map SaveField.col).Nodup)
    {mem : Row} {attr : Val} {cache : Cache} (hc : cache (cacheName (.int κ)) = none) :
    (∃ e, preSaveCached A cb κ m db add (pre ++ ⟨cb.field, .cacheKey⟩ :: post) mem attr cache = (.error e, cache)) ∨
    (∃ e obj, preSaveCached A cb κ m db add (pre ++ ⟨cb.field, .cacheKey⟩ :: post) mem attr cache =
      (.error e, cache.set (cacheName (.int κ)) (cb.value db obj))) ∨
    ∃ mem' obj, preSaveCached A cb κ m db add (pre ++ ⟨cb.field, .cacheKey⟩ :: post) mem attr cache =
        (.ok (mem', cb.value db obj), cache.set (cacheName (.int κ)) (cb.value db obj)) ∧
      mem' cb.field = .int κ ∧
      (∀ c, c ≠ cb.field → (c ∉ post.map SaveField.col ∨ ∃ f ∈ post, f.col = c ∧ f.kind = .plain) → mem' c = obj c) ∧
      ∀ c, c ∉ (pre ++ ⟨cb.field, .cacheKey⟩ :: post).map SaveField.col → mem' c = mem c := by
  simp only [List.map_append, List.map_cons, List.nodup_append, List.nodup_cons, List.mem_map, List.mem_cons, not_exists, not_and] at hn
  obtain ⟨hn1, ⟨hn2, hn4⟩, hn3⟩ := hn
  have hpre : ∀ f ∈ pre, f.col ≠ cb.field := fun f hf => hn3 f.col ⟨f, hf, rfl⟩ cb.field (.inl rfl)
  have hpost : ∀ f ∈ post, f.col ≠ cb.field := hn2
  rw [preSaveCached_append hpre]
  cases h1 : preSaveAll A m db add pre mem with
  | error e => exact .inl ⟨e, rfl⟩
  | ok obj =>
    right
    simp only [preSaveCached, if_true, setCached_none hc, preSaveCached_free hpost]
    cases h2 : preSaveAll A m db add post (obj.set cb.field (.int κ)) with
    | error e => exact .inl ⟨e, obj, rfl⟩
    | ok mem' =>
      refine .inr ⟨mem', obj, rfl, ?_, ?_, ?_⟩
      · rw [preSaveAll_other h2 _ hpost]
        simp [Row.set]
      · intro c hc1 hc2
        rw [preSaveAll_keeps h2 c fun f hf e => ?_]
        · simp [Row.set, hc1]
        · rcases hc2 with hc2 | ⟨g, hg, e', hk⟩
          · exact absurd (List.mem_map.2 ⟨f, hf, e⟩) hc2
          · have : f = g := by
              have aux : ∀ {l : List SaveField}, (l.map SaveField.col).Nodup → f ∈ l → g ∈ l → f.col = g.col → f = g := by
                intro l
                induction l with
                | nil => intro _ h; simp at h
                | cons x l ih =>
                  intro hnd m1 m2 e
                  simp only [List.map_cons, List.nodup_cons, List.mem_map, not_exists, not_and] at hnd
                  rcases List.mem_cons.1 m1 with e1 | e1 <;> rcases List.mem_cons.1 m2 with e2 | e2
                  · rw [e1, e2]
                  · exact absurd (e1 ▸ e.symm) (hnd.1 g e2)
                  · exact absurd (e2 ▸ e) (hnd.1 f e1)
                  · exact ih hnd.2 e1 e2 e
              exact aux hn4 hf hg (e.trans e'.symm)
            rw [this, hk]
      · intro c hc
        simp only [List.map_append, List.map_cons, List.mem_append, List.mem_cons, not_or] at hc
        rw [preSaveAll_other h2 c fun f hf e => hc.2.2 (List.mem_map.2 ⟨f, hf, e⟩)]
        simp only [Row.set, if_neg hc.2.1]
        exact preSaveAll_other h1 c fun f hf e => hc.1 (List.mem_map.2 ⟨f, hf, e⟩)
end

/-! ## The invariant -/

/-- What is known at every moment. -/
structure CacheInv (E : Engine) (cb : Callback) (st : CacheState) : Prop where
  pks : ∀ db ∈ st.db :: st.savepoints, ((db.rows cb.model.table).map fun r => r cb.model.pk).Nodup
  notNull : ∀ db ∈ st.db :: st.savepoints, KeysOk cb db
  ints : ∀ db ∈ st.db :: st.savepoints, ∀ r ∈ db.rows cb.model.table, ∃ i : Int, i ≠ 0 ∧ r cb.field = .int i
  future : ∀ db ∈ st.db :: st.savepoints, ∀ r ∈ db.rows cb.model.table, ∀ n, st.db.draws ≤ n → r cb.field ≠ .int (E.rand n)
  empty : ∀ n, st.db.draws ≤ n → st.cache (cacheName (.int (E.rand n))) = none
  same : ∀ db ∈ st.db :: st.savepoints, ∀ db' ∈ st.db :: st.savepoints, ∀ r ∈ db.rows cb.model.table, ∀ r' ∈ db'.rows cb.model.table,
    r cb.field = r' cb.field → cb.value db r = cb.value db' r'
  right : ∀ db ∈ st.db :: st.savepoints, ∀ r ∈ db.rows cb.model.table, ∀ v, st.cache (cacheName (r cb.field)) = some v → v = cb.value db r

/-- What a statement may do: every row has a newly drawn key, or the key it had and the same value, or the new key and its value. -/
def StmtRes (E : Engine) (cb : Callback) (new : Option (Int × Val)) (db db' : Db) : Prop :=
  ∀ r' ∈ db'.rows cb.model.table,
    (∃ n, db.draws ≤ n ∧ n < db'.draws ∧ r' cb.field = .int (E.rand n)) ∨
    (∃ r ∈ db.rows cb.model.table, r cb.model.pk = r' cb.model.pk ∧ r cb.field = r' cb.field ∧ cb.value db r = cb.value db' r') ∨
    (∃ p ∈ new, r' cb.field = .int p.1 ∧ cb.value db' r' = p.2)

section
variable {E : Engine} {cb : Callback} {st : CacheState}

theorem CacheInv.setNew {κ : Int} {v : Val} (h : CacheInv E cb st) (hκ : st.NewKey E cb κ) :
    CacheInv E cb { st with cache := st.cache.set (cacheName (.int κ)) v } := by
  obtain ⟨_, _, h1, h2⟩ := hκ
  refine ⟨h.pks, h.notNull, h.ints, h.future, fun n hn => ?_, h.same, fun db hdb r hr v hv => ?_⟩
  · have hn' : st.db.draws ≤ n := hn
    change (st.cache.set _ _) _ = none
    rw [Cache.set_other fun e => h2 n hn' (cacheName_inj e).symm]
    exact h.empty n hn'
  · obtain ⟨i, _, hi⟩ := h.ints db hdb r hr
    refine h.right db hdb r hr v ?_
    change (st.cache.set _ _) _ = some v at hv
    rw [hi] at hv ⊢
    rwa [Cache.set_other fun e => ?_] at hv
    have := cacheName_inj e
    exact h1 db hdb r hr (this ▸ hi)

theorem CacheState.NewKey.set {κ κ' : Int} {v : Val} (h : st.NewKey E cb κ) (hne : κ ≠ κ') :
    CacheState.NewKey E cb { st with cache := st.cache.set (cacheName (.int κ')) v } κ :=
  ⟨h.1, by
    change (st.cache.set _ _) _ = none
    rw [Cache.set_other fun e => hne (cacheName_inj e)]
    exact h.2.1, h.2.2⟩

/-- The database changes. -/
theorem CacheInv.change {new : Option (Int × Val)} {db' : Db} (hrand : ∀ m n, E.rand m = E.rand n → m = n) (h0 : ∀ n, E.rand n ≠ 0)
    (h : CacheInv E cb st)
    (hκ0 : ∀ p ∈ new, p.1 ≠ 0) (hκ : ∀ p ∈ new, ∀ db ∈ st.db :: st.savepoints, ∀ r ∈ db.rows cb.model.table, r cb.field ≠ .int p.1)
    (hκn : ∀ p ∈ new, ∀ n, st.db.draws ≤ n → p.1 ≠ E.rand n) (hw : ∀ p ∈ new, ∀ v, st.cache (cacheName (.int p.1)) = some v → v = p.2)
    (hd : Drawn E cb.key st.db.draws db') (hle : st.db.draws ≤ db'.draws) (hk : KeysOk cb db')
    (hres : StmtRes E cb new st.db db') : CacheInv E cb { st with db := db' } := by
  have hcur : st.db ∈ st.db :: st.savepoints := List.mem_cons_self ..
  have hsame1 : ∀ r' ∈ db'.rows cb.model.table, ∀ db ∈ st.savepoints, ∀ r ∈ db.rows cb.model.table, r' cb.field = r cb.field →
      cb.value db' r' = cb.value db r := by
    intro r' hr' db hdb r hr he
    have hdb' := List.mem_cons_of_mem st.db hdb
    rcases hres r' hr' with ⟨n, h1, _, h3⟩ | ⟨r0, hr0, _, h2, h3⟩ | ⟨p, hp, h1, _⟩
    · exact absurd (he ▸ h3) (h.future db hdb' r hr n h1)
    · rw [← h3]; exact h.same _ hcur _ hdb' r0 hr0 r hr (h2.trans he)
    · exact absurd (he ▸ h1) (hκ p hp db hdb' r hr)
  have hsame2 : ∀ r ∈ db'.rows cb.model.table, ∀ r' ∈ db'.rows cb.model.table, r cb.field = r' cb.field →
      cb.value db' r = cb.value db' r' := by
    intro r hr r' hr' he
    rcases hres r hr with ⟨n, h1, _, h3⟩ | ⟨r0, hr0, _, h2, h3⟩ | ⟨p, hp, h1, h2⟩
    · have := hd.inj r hr r' hr' n h1 h3 (he ▸ h3)
      rw [mem_of_pk hd.uniq hr hr' this]
    · rcases hres r' hr' with ⟨n, g1, _, g3⟩ | ⟨r1, hr1, _, g2, g3⟩ | ⟨q, hq, g1, g2⟩
      · exact absurd (h2.trans (he.trans g3)) (h.future _ hcur r0 hr0 n g1)
      · rw [← h3, ← g3]
        exact h.same _ hcur _ hcur r0 hr0 r1 hr1 (h2.trans (he.trans g2.symm))
      · exact absurd (h2.trans (he.trans g1)) (hκ q hq _ hcur r0 hr0)
    · rcases hres r' hr' with ⟨n, g1, _, g3⟩ | ⟨r1, hr1, _, g2, g3⟩ | ⟨q, hq, g1, g2⟩
      · exact absurd (Val.int.inj (h1.symm.trans (he.trans g3))) (hκn p hp n g1)
      · exact absurd (g2.trans (he.symm.trans h1)) (hκ p hp _ hcur r1 hr1)
      · rw [h2, g2, Option.mem_unique hp hq]
  refine ⟨?_, ?_, ?_, ?_, fun n hn => h.empty n (Nat.le_trans hle hn), ?_, ?_⟩
  · intro db hdb
    rcases List.mem_cons.1 hdb with rfl | hdb
    · exact hd.uniq
    · exact h.pks db (List.mem_cons_of_mem _ hdb)
  · intro db hdb
    rcases List.mem_cons.1 hdb with rfl | hdb
    · exact hk
    · exact h.notNull db (List.mem_cons_of_mem _ hdb)
  · intro db hdb r hr
    rcases List.mem_cons.1 hdb with rfl | hdb
    · rcases hres r hr with ⟨n, h1, _, h3⟩ | ⟨r0, hr0, _, h2, h3⟩ | ⟨p, hp, h1, _⟩
      · exact ⟨_, h0 n, h3⟩
      · rw [← h2]; exact h.ints _ hcur r0 hr0
      · exact ⟨p.1, hκ0 p hp, h1⟩
    · exact h.ints db (List.mem_cons_of_mem _ hdb) r hr
  · intro db hdb r hr n hn
    have hn : db'.draws ≤ n := hn
    rcases List.mem_cons.1 hdb with rfl | hdb
    · exact hd.old r hr n hn
    · exact h.future db (List.mem_cons_of_mem _ hdb) r hr n (Nat.le_trans hle hn)
  · intro db hdb db1 hdb1 r hr r' hr' he
    rcases List.mem_cons.1 hdb with rfl | hdb
    · rcases List.mem_cons.1 hdb1 with rfl | hdb1
      · exact hsame2 r hr r' hr' he
      · exact hsame1 r hr db1 hdb1 r' hr' he
    · rcases List.mem_cons.1 hdb1 with rfl | hdb1
      · exact (hsame1 r' hr' db hdb r hr he.symm).symm
      · exact h.same db (List.mem_cons_of_mem _ hdb) db1 (List.mem_cons_of_mem _ hdb1) r hr r' hr' he
  · intro db hdb r hr v hv
    rcases List.mem_cons.1 hdb with rfl | hdb
    · change st.cache _ = _ at hv
      rcases hres r hr with ⟨n, h1, _, h3⟩ | ⟨r0, hr0, _, h2, h3⟩ | ⟨p, hp, h1, h2⟩
      · rw [h3, h.empty n h1] at hv
        cases hv
      · rw [← h2] at hv
        rw [← h3]
        exact h.right _ hcur r0 hr0 v hv
      · rw [h1] at hv
        rw [h2]
        exact hw p hp v hv
    · exact h.right db (List.mem_cons_of_mem _ hdb) r hr v hv

theorem CacheInv.change1 {κ : Int} {w : Val} {db' : Db} (hrand : ∀ m n, E.rand m = E.rand n → m = n) (h0 : ∀ n, E.rand n ≠ 0)
    (h : CacheInv E cb st)
    (hκ0 : κ ≠ 0) (hκ : ∀ db ∈ st.db :: st.savepoints, ∀ r ∈ db.rows cb.model.table, r cb.field ≠ .int κ)
    (hκn : ∀ n, st.db.draws ≤ n → κ ≠ E.rand n) (hw : ∀ v, st.cache (cacheName (.int κ)) = some v → v = w)
    (hd : Drawn E cb.key st.db.draws db') (hle : st.db.draws ≤ db'.draws) (hk : KeysOk cb db')
    (hres : StmtRes E cb (some (κ, w)) st.db db') : CacheInv E cb { st with db := db' } := by
  refine h.change hrand h0 ?_ ?_ ?_ ?_ hd hle hk hres <;> intro p hp <;> obtain rfl := Option.some.inj hp
  · exact hκ0
  · exact hκ
  · exact hκn
  · exact hw

theorem CacheInv.drawn (h : CacheInv E cb st) : Drawn E cb.key st.db.draws st.db where
  uniq := h.pks _ (List.mem_cons_self ..)
  old := h.future _ (List.mem_cons_self ..)
  inj := fun r hr _ _ n hn he _ => absurd he (h.future _ (List.mem_cons_self ..) r hr n hn)

/-- The function's value depends on nothing else. -/
theorem value_seenProp (cb : Callback) (w : Val) : SeenProp cb.key cb.own fun db r => cb.value db r = w := by
  intro db db' r r' _ ho hs h
  rw [← h]
  simp only [Callback.value]
  congr 1
  · exact List.map_congr_left fun c hc => ho c (.inl hc)
  · exact List.map_congr_left fun d hd => hs d hd

/-- The rules that tables, keys and relations follow are those of the CacheKeyField. -/
theorem legal_key {s : Stmt} {db : Db} (h : LegalStmt E cb db s) : LegalStmt E cb.key.relations db s := by cases s <;> exact h
theorem keysOk_key {db : Db} : KeysOk cb.key.relations db ↔ KeysOk cb db := Iff.rfl


theorem seenProp_value (cb : Callback) (P : Val → Prop) : SeenProp cb.key cb.own fun db r => P (cb.value db r) := by
  intro db db' r r' h1 h2 h3 h4
  rw [value_seenProp cb _ db db' r r' h1 h2 h3 rfl]
  exact h4

section
variable {A : App} {D : List Denorm} {om : OrmModel} {s : Stmt} {db db' : Db}

/-- What the instance `v` had before. -/
def HadValue (cb : Callback) (db : Db) (v : Val) (x : Val) : Prop :=
  ∃ r ∈ db.rows cb.model.table, r cb.model.pk = v ∧ cb.value db r = x

theorem before_res {v : Val} {r' : Row} (hu : ((db.rows cb.model.table).map fun r => r cb.model.pk).Nodup)
    (h1 : HadValue cb db v (cb.value db' r')) (h2 : ∃ r ∈ db.rows cb.model.table, r cb.model.pk = v ∧ r cb.field = r' cb.field) (hv : r' cb.model.pk = v) :
    ∃ r ∈ db.rows cb.model.table, r cb.model.pk = r' cb.model.pk ∧ r cb.field = r' cb.field ∧ cb.value db r = cb.value db' r' := by
  obtain ⟨r, hr, hrv, hx⟩ := h1
  obtain ⟨r1, hr1, hr1v, hk⟩ := h2
  have := mem_of_pk hu hr hr1 (hrv.trans hr1v.symm)
  subst this
  exact ⟨r, hr, hrv.trans hv.symm, hk, hx⟩

theorem stmtRes_apart (hA : CachedSetting A D cb) (hI : Drawn A.engine cb.key db.draws db) (hK : KeysOk cb db)
    (hL : LegalStmt A.engine cb db s) (hS : KeyLegal cb.key db s) (ha : cb.Apart s) (he : A.engine.exec A.fuel s db = .ok db') (new : Option (Int × Val)) :
    StmtRes A.engine cb new db db' ∧ Drawn A.engine cb.key db.draws db' ∧ db.draws ≤ db'.draws ∧ KeysOk cb db' := by
  have hs : KeyStmt A.engine cb.key db.draws s := by
    cases s with
    | insert t rs => exact fun h => absurd h ha
    | update t w σ => exact fun h x r => .inl (ha h x r).1
    | delete t w => trivial
  obtain ⟨⟨h1, h2, h3⟩, _⟩ := drawn_exec hA.installed hA.declared hA.noReentry hA.rand (legal_key hL) hK hS hs (Nat.le_refl _) hI he
  refine ⟨fun r' hr' => ?_, h1, h2, h3⟩
  have := holds_or_drawn (k := cb.key) (own := cb.own) (v := r' cb.model.pk) (G := fun db' r' => HadValue cb db (r' cb.model.pk) (cb.value db' r'))
    (K := fun x => ∃ r ∈ db.rows cb.model.table, r cb.model.pk = r' cb.model.pk ∧ r cb.field = x)
    hA.installed hA.declared hA.noReentry hA.rand (fun db1 db2 a b g1 g2 g3 g4 => by
      have e := value_seenProp cb _ db1 db2 a b g1 g2 g3 rfl
      have e2 : b cb.model.pk = a cb.model.pk := g1
      simp only [e, e2]
      exact g4) hA.generic hA.own (legal_key hL) hK hS hs hI he (.inl ⟨?_, ?_⟩) hr' rfl
  · rcases this with ⟨g1, g2⟩ | g
    · exact .inr (.inl (before_res hI.uniq g1 g2 rfl))
    · exact .inl g
  · cases s with
    | insert t rs => exact fun h => absurd h ha
    | update t w σ => exact fun h x r => ha h x r
    | delete t w => trivial
  · exact fun r hr hv => ⟨⟨r, hr, rfl, rfl⟩, r, hr, hv, rfl⟩

/-- A statement that writes a single row, `n`, with the new key. -/
theorem stmtRes_one (hA : CachedSetting A D cb) (hI : Drawn A.engine cb.key db.draws db) (hK : KeysOk cb db)
    (hL : LegalStmt A.engine cb db s) (hS : KeyLegal cb.key db s) {κ : Int} {w : Val} {n : Row} {op : RowOp} (hop : s.ops db = [op])
    (hks : KeyStmt A.engine cb.key db.draws s)
    (hrows : ∀ r' ∈ (applyOp A.engine s.table op db).1.rows cb.model.table, r' = n ∨ r' ∈ db.rows cb.model.table ∧ r' cb.model.pk ≠ n cb.model.pk)
    (hn : n cb.field = .int κ) (hκn : ∀ m, db.draws ≤ m → κ ≠ A.engine.rand m) (hw : cb.value db n = w) (he : A.engine.exec A.fuel s db = .ok db') :
    StmtRes A.engine cb (some (κ, w)) db db' ∧ Drawn A.engine cb.key db.draws db' ∧ db.draws ≤ db'.draws ∧ KeysOk cb db' ∧
      ∀ r' ∈ db'.rows cb.model.table, r' cb.model.pk = n cb.model.pk → r' cb.field = .int κ → cb.value db' r' = w := by
  obtain ⟨⟨h1, h2, h3⟩, _⟩ := drawn_exec hA.installed hA.declared hA.noReentry hA.rand (legal_key hL) hK hS hks (Nat.le_refl _) hI he
  have own : ∀ r' ∈ db'.rows cb.model.table, r' cb.model.pk = n cb.model.pk →
      (cb.value db' r' = w ∧ r' cb.field = .int κ) ∨ ∃ m, db.draws ≤ m ∧ m < db'.draws ∧ r' cb.field = .int (A.engine.rand m) := by
    intro r' hr' hv
    refine holds_or_drawn (k := cb.key) (own := cb.own) (v := n cb.model.pk) (G := fun db' r' => cb.value db' r' = w) (K := fun x => x = .int κ)
      hA.installed hA.declared hA.noReentry hA.rand (value_seenProp cb w) hA.generic hA.own (legal_key hL) hK hS hks hI he
      (.inr ⟨op, hop, fun r1 hr1 hv1 => ?_⟩) hr' hv
    rcases hrows r1 hr1 with rfl | ⟨_, h⟩
    · exact ⟨hw, hn⟩
    · exact absurd hv1 h
  refine ⟨fun r' hr' => ?_, h1, h2, h3, fun r' hr' hv hk => ?_⟩
  · by_cases hv : r' cb.model.pk = n cb.model.pk
    · rcases own r' hr' hv with h | h
      · exact .inr (.inr ⟨_, rfl, h.2, h.1⟩)
      · exact .inl h
    · have := holds_or_drawn (k := cb.key) (own := cb.own) (v := r' cb.model.pk)
        (G := fun db' r' => HadValue cb db (r' cb.model.pk) (cb.value db' r'))
        (K := fun x => ∃ r ∈ db.rows cb.model.table, r cb.model.pk = r' cb.model.pk ∧ r cb.field = x)
        hA.installed hA.declared hA.noReentry hA.rand (fun db1 db2 a b g1 g2 g3 g4 => by
          have e := value_seenProp cb _ db1 db2 a b g1 g2 g3 rfl
          have e2 : b cb.model.pk = a cb.model.pk := g1
          simp only [e, e2]
          exact g4) hA.generic hA.own (legal_key hL) hK hS hks hI he (.inr ⟨op, hop, fun r1 hr1 hv1 => ?_⟩) hr' rfl
      · rcases this with ⟨g1, g2⟩ | g
        · exact .inr (.inl (before_res hI.uniq g1 g2 rfl))
        · exact .inl g
      · rcases hrows r1 hr1 with rfl | ⟨h, _⟩
        · exact absurd hv1.symm hv
        · exact ⟨⟨r1, h, rfl, rfl⟩, r1, h, hv1, rfl⟩
  · rcases own r' hr' hv with h | ⟨m, g1, _, g3⟩
    · exact h.1
    · exact absurd (Val.int.inj (hk.symm.trans g3)) (hκn m g1)

theorem filter_pk {m : Model} {k : Val} : ∀ {rows : List Row}, (rows.map fun r => r m.pk).Nodup → (rows.filter (isRowOf m k)).length ≤ 1
  | [], _ => by simp
  | r :: rows, h => by
    simp only [List.map_cons, List.nodup_cons, List.mem_map, not_exists, not_and] at h
    rw [List.filter_cons]
    split
    · rename_i hr
      have hr := (Val.sqlEq_iff.1 hr).1
      have : rows.filter (isRowOf m k) = [] := by
        rw [List.filter_eq_nil_iff]
        intro r' hr' hc
        exact h.1 r' hr' ((Val.sqlEq_iff.1 hc).1.trans hr.symm)
      simp [this]
    · exact filter_pk h.2

/-- The UPDATE of save(). -/
theorem saveUpdate_res (hA : CachedSetting A D cb) (hC : CachedIn cb om) (hI : Drawn A.engine cb.key db.draws db) (hK : KeysOk cb db)
    {κ : Int} {w : Val} {mem r : Row} (hr : r ∈ db.rows cb.model.table) (hpk : r cb.model.pk = mem cb.model.pk)
    (hκ : mem cb.field = .int κ) (hκn : ∀ m, db.draws ≤ m → κ ≠ A.engine.rand m) (hw : cb.value db (savedRow om mem r) = w)
    (he : A.engine.exec A.fuel (saveUpdate om mem) db = .ok db') :
    StmtRes A.engine cb (some (κ, w)) db db' ∧ Drawn A.engine cb.key db.draws db' ∧ db.draws ≤ db'.draws ∧ KeysOk cb db' ∧
      ∀ r' ∈ db'.rows cb.model.table, r' cb.model.pk = mem cb.model.pk → r' cb.field = .int κ → cb.value db' r' = w := by
  have hm := hC.model
  have hu : ((db.rows cb.model.table).map fun r => r cb.model.pk).Nodup := hI.uniq
  have hnn : r cb.model.pk ≠ .null := hK _ (List.mem_cons_self ..) r hr
  have hfield : cb.field ∈ om.saved.map SaveField.col := by
    obtain ⟨pre, post, h, _⟩ := hC.order
    rw [h]; simp
  have hkey : ∀ r : Row, savedRow om mem r cb.field = .int κ := fun r => by rw [savedRow, if_pos hfield, hκ]
  have hspk : ∀ r : Row, savedRow om mem r cb.model.pk = r cb.model.pk := fun r => if_neg (hm ▸ hC.proper.pk)
  obtain ⟨i, hi, hi'⟩ := List.mem_iff_getElem.1 hr
  have hi2 : (db.rows om.model.table)[i]? = some r := by rw [hm, List.getElem?_eq_getElem hi, hi']
  have hT := targetsOf_unique (m := om.model) (hm ▸ hu) hi2 (k := mem om.model.pk) (by rw [hm]; exact hpk) (by rw [hm, ← hpk]; exact hnn)
  have hops : (saveUpdate om mem).ops db = [.upd i fun _ r => savedRow om mem r] := by
    simp only [saveUpdate, Stmt.ops, hT]
    rfl
  have := stmtRes_one hA hI hK (s := saveUpdate om mem) ?_ ?_ (n := savedRow om mem r) hops ?_ ?_ (hkey r) hκn hw he
  · rw [hspk, hpk] at this
    exact this
  · intro p hp ht x r
    have := hC.keys p hp (by rw [ht]; exact congrArg Model.table hm)
    rw [this]
    exact hspk r
  · intro ht
    left
    exact filter_pk (hm ▸ hu)
  · intro _ x r
    refine .inr fun n hn => ?_
    change savedRow om mem r cb.field ≠ _
    rw [hkey]
    exact fun e => hκn n hn (Val.int.inj e)
  · intro r' hr'
    change r' ∈ (applyOp A.engine om.model.table _ db).1.rows cb.model.table at hr'
    simp only [applyOp, hi2] at hr'
    rw [hm] at hr'
    simp only [Db.setRows_same] at hr'
    by_cases hv : r' cb.model.pk = r cb.model.pk
    · left
      have hnd : (((db.rows cb.model.table).set i (savedRow om mem r)).map fun r => r cb.model.pk).Nodup := by
        rw [List.map_set, hspk]
        have : (List.map (fun r => r cb.model.pk) (db.rows cb.model.table)).set i (r cb.model.pk) =
            List.map (fun r => r cb.model.pk) (db.rows cb.model.table) := by
          apply List.ext_getElem
          · simp
          · intro j h1 h2
            rw [List.getElem_set]
            split
            · rename_i e; subst e; simp [hi']
            · rfl
        rw [this]
        exact hu
      refine mem_of_pk hnd hr' (List.mem_set hi _) ?_
      rw [hspk]; exact hv
    · right
      rcases List.mem_or_eq_of_mem_set hr' with h | rfl
      · exact ⟨h, by rw [hspk]; exact hv⟩
      · exact absurd (hspk r) hv

/-- The INSERT of save(). -/
theorem saveInsert_res (hA : CachedSetting A D cb) (hC : CachedIn cb om) (hI : Drawn A.engine cb.key db.draws db) (hK : KeysOk cb db)
    {κ : Int} {w : Val} {mem : Row} (hnew : ∀ r ∈ db.rows cb.model.table, r cb.model.pk ≠ mem cb.model.pk)
    (hnn : mem cb.model.pk ≠ .null) (hlink : ∀ d ∈ cb.deps, d.dep.other.table = cb.model.table → Unlinked d.dep db mem)
    (hκ : mem cb.field = .int κ) (hκn : ∀ m, db.draws ≤ m → κ ≠ A.engine.rand m) (hw : cb.value db mem = w)
    (he : A.engine.exec A.fuel (.insert om.model.table [mem]) db = .ok db') :
    StmtRes A.engine cb (some (κ, w)) db db' ∧ Drawn A.engine cb.key db.draws db' ∧ db.draws ≤ db'.draws ∧ KeysOk cb db' ∧
      ∀ r' ∈ db'.rows cb.model.table, r' cb.model.pk = mem cb.model.pk → r' cb.field = .int κ → cb.value db' r' = w := by
  have hm := hC.model
  rw [hm] at he
  refine stmtRes_one hA hI hK (s := .insert cb.model.table [mem]) ?_ ?_ (n := mem) rfl ?_ ?_ hκ hκn hw he
  · intro r hr
    rw [List.mem_singleton] at hr
    subst hr
    refine ⟨fun p hp ht => ?_, fun d hd ht => hlink d hd ht⟩
    rw [hC.keys p hp ht]
    exact hnn
  · refine fun _ => ⟨fun r hr r0 h0 => ?_, List.pairwise_singleton ..⟩
    rw [List.mem_singleton] at hr
    subst hr
    exact hnew r0 h0
  · intro _ r hr n hn
    rw [List.mem_singleton] at hr
    subst hr
    change r cb.field ≠ _
    rw [hκ]
    exact fun e => hκn n hn (Val.int.inj e)
  · intro r' hr'
    simp only [Stmt.table, applyOp, Db.setRows_same, List.mem_append, List.mem_singleton] at hr'
    rcases hr' with h | h
    · exact .inr ⟨h, hnew r' h⟩
    · exact .inl h

/-- The function sees the same. -/
theorem value_agree (hA : CachedSetting A D cb) {r r' : Row} (hpk : r' cb.model.pk = r cb.model.pk)
    (h : ∀ c, c ∈ cb.own ∨ c ∈ cb.key.fks → r' c = r c) : cb.value db r' = cb.value db r := by
  have hT := keyTracks_of_installed hA.installed hA.declared
  have hrel := related_same (db := db) hT hA.generic (r := r) (r' := r') hpk fun c hc => h c (.inr hc)
  exact value_seenProp cb _ db db r r' hpk h (fun d hd => by rw [hrel d hd]) rfl

theorem CacheState.NewKey.ne {κ : Int} {st : CacheState} (h : st.NewKey E cb κ) : ∀ m, st.db.draws ≤ m → κ ≠ E.rand m := h.2.2.2

/-- What save() leaves behind. -/
theorem saveCached_inv (hA : CachedSetting A D cb) (hC : CachedIn cb om) (hI : CacheInv A.engine cb st) {mem : Row} {attr : Val} {κ1 κ2 : Int}
    (hn : mem cb.model.pk ≠ .null) (h1 : st.NewKey A.engine cb κ1) (h2 : st.NewKey A.engine cb κ2) (hne : κ1 ≠ κ2)
    (hlink : (∀ r ∈ st.db.rows cb.model.table, r cb.model.pk ≠ mem cb.model.pk) →
      ∀ d ∈ cb.deps, d.dep.other.table = cb.model.table → Unlinked d.dep st.db mem) {res : Except OrmErr (Db × Row × Val)} {cache' : Cache}
    (hres : A.saveCached cb κ1 κ2 om mem attr st.db st.cache = (res, cache')) :
    CacheInv A.engine cb { st with db := dbAfter st.db res, cache := cache' } ∧
    ∀ db' mem' a, res = .ok (db', mem', a) → mem' cb.model.pk = mem cb.model.pk ∧ ∃ κ, mem' cb.field = .int κ ∧
      ∀ r' ∈ db'.rows cb.model.table, r' cb.model.pk = mem cb.model.pk → r' cb.field = mem' cb.field → cb.value db' r' = a := by
  obtain ⟨pre, post, hsaved, hcols⟩ := hC.order
  have hm := hC.model
  have hnd : ((pre ++ ⟨cb.field, .cacheKey⟩ :: post).map SaveField.col).Nodup := hsaved ▸ hC.proper.cols
  have hpkc : cb.model.pk ∉ (pre ++ ⟨cb.field, .cacheKey⟩ :: post).map SaveField.col := by rw [← hsaved, ← hm]; exact hC.proper.pk
  have hdis : ∀ c ∈ pre.map SaveField.col, c ≠ cb.field ∧ c ∉ post.map SaveField.col := by
    intro c hc
    rw [List.map_append, List.nodup_append] at hnd
    have := hnd.2.2 c hc
    refine ⟨this _ (List.mem_cons_self ..), fun h => this c (List.mem_cons_of_mem _ h) rfl⟩
  have hpost : ∀ f ∈ post, f.col ≠ cb.field := by
    intro f hf e
    rw [List.map_append, List.nodup_append] at hnd
    have := (List.nodup_cons.1 hnd.2.1).1
    exact this (List.mem_map.2 ⟨f, hf, e⟩)
  -- the columns the function reads are in memory as they were for the function
  have hread : ∀ {mem' obj : Row}, (∀ c, c ≠ cb.field → (c ∉ post.map SaveField.col ∨ ∃ f ∈ post, f.col = c ∧ f.kind = .plain) → mem' c = obj c) →
      mem' cb.model.pk = obj cb.model.pk ∧ ∀ c, c ∈ cb.own ∨ c ∈ cb.key.fks → mem' c = obj c := by
    intro mem' obj h
    have hpk : mem' cb.model.pk = obj cb.model.pk := by
      simp only [List.map_append, List.map_cons, List.mem_append, List.mem_cons, not_or] at hpkc
      exact h _ hpkc.2.1 (.inl hpkc.2.2)
    refine ⟨hpk, fun c hc => ?_⟩
    rcases hcols c hc with rfl | hc | ⟨f, hf, rfl, hk⟩
    · exact hpk
    · exact h c (hdis c hc).1 (.inl (hdis c hc).2)
    · exact h _ (hpost f hf) (.inr ⟨f, hf, rfl, hk⟩)
  have hsv : ∀ c, c ∈ cb.own ∨ c ∈ cb.key.fks → c = cb.model.pk ∨ c ∈ om.saved.map SaveField.col := by
    intro c hc
    rw [hsaved]
    rcases hcols c hc with rfl | hc | ⟨f, hf, rfl, _⟩
    · exact .inl rfl
    · right; rw [List.map_append]; exact List.mem_append_left _ hc
    · right; rw [List.map_append]; exact List.mem_append_right _ (List.mem_cons_of_mem _ (List.mem_map.2 ⟨f, hf, rfl⟩))
  have hdr := hI.drawn
  have hKo := hI.notNull _ (List.mem_cons_self ..)
  simp only [App.saveCached] at hres
  rcases preSaveCached_split (A := A) (m := om.model) (db := st.db) (add := false) hnd (mem := mem) (attr := attr) h1.2.1 with
    ⟨e, hp⟩ | ⟨e, obj, hp⟩ | ⟨mem1, obj, hp, hk1, hc1, hk2⟩
  · rw [hsaved, hp] at hres
    simp only [Prod.mk.injEq] at hres
    obtain ⟨rfl, rfl⟩ := hres
    exact ⟨hI, by simp⟩
  · rw [hsaved, hp] at hres
    simp only [Prod.mk.injEq] at hres
    obtain ⟨rfl, rfl⟩ := hres
    exact ⟨hI.setNew h1, by simp⟩
  · rw [hsaved, hp] at hres
    have hI1 := hI.setNew (v := cb.value st.db obj) h1
    obtain ⟨hpk1, hrd1⟩ := hread hc1
    have hm1 : mem1 cb.model.pk = mem cb.model.pk := hk2 _ hpkc
    by_cases hany : (st.db.rows om.model.table).any (isRowOf om.model (mem om.model.pk)) = true
    · simp only [hany, if_true] at hres
      cases he : A.exec (saveUpdate om mem1) st.db with
      | error e =>
        rw [he] at hres
        simp only [Prod.mk.injEq] at hres
        obtain ⟨rfl, rfl⟩ := hres
        exact ⟨hI1, by simp⟩
      | ok db' =>
        rw [he] at hres
        simp only [Prod.mk.injEq] at hres
        obtain ⟨rfl, rfl⟩ := hres
        obtain ⟨r, hr, hrk⟩ := List.any_eq_true.1 hany
        have hrk := (Val.sqlEq_iff.1 hrk).1
        rw [hm] at hr hrk
        have hval : cb.value st.db (savedRow om mem1 r) = cb.value st.db obj := by
          have hspk : savedRow om mem1 r cb.model.pk = obj cb.model.pk := by
            rw [← hpk1, hm1, ← hrk]
            exact if_neg (hm ▸ hC.proper.pk)
          refine value_agree hA hspk fun c hc => ?_
          rcases hsv c hc with rfl | hc'
          · exact hspk
          · rw [savedRow, if_pos hc']; exact hrd1 c hc
        obtain ⟨g1, g2, g3, g4, g5⟩ := saveUpdate_res hA hC hdr hKo hr (hrk.trans hm1.symm) hk1 h1.ne hval (exec_ok he)
        refine ⟨hI1.change1 hA.rand hA.rand0 h1.1 h1.2.2.1 h1.2.2.2 (fun v hv => ?_) g2 g3 g4 g1, ?_⟩
        · change (st.cache.set _ _) _ = some v at hv
          rw [Cache.set_same] at hv
          exact (Option.some.inj hv).symm
        · intro db2 mem2 a h
          simp only [Except.ok.injEq, Prod.mk.injEq] at h
          obtain ⟨rfl, rfl, rfl⟩ := h
          exact ⟨hm1, κ1, hk1, fun r' hr' hv hk => g5 r' hr' (hv.trans hm1.symm) (hk.trans hk1)⟩
    · simp only [hany] at hres
      have hnew : ∀ r ∈ st.db.rows cb.model.table, r cb.model.pk ≠ mem cb.model.pk := by
        intro r hr e
        refine hany (List.any_eq_true.2 ⟨r, hm ▸ hr, ?_⟩)
        rw [isRowOf, hm, e]
        exact Val.sqlEq_iff.2 ⟨rfl, hn⟩
      have h2' := h2.set (v := cb.value st.db obj) (Ne.symm hne)
      rcases preSaveCached_split (A := A) (m := om.model) (db := st.db) (add := true) hnd (mem := mem1) (attr := cb.value st.db obj) h2'.2.1 with
        ⟨e, hp⟩ | ⟨e, obj2, hp⟩ | ⟨mem2, obj2, hp, hk1, hc1, hk2⟩
      · rw [hp] at hres
        simp only [Prod.mk.injEq] at hres
        obtain ⟨rfl, rfl⟩ := hres
        exact ⟨hI1, by simp⟩
      · rw [hp] at hres
        simp only [Prod.mk.injEq] at hres
        obtain ⟨rfl, rfl⟩ := hres
        exact ⟨hI1.setNew h2', by simp⟩
      · rw [hp] at hres
        have hI2 := hI1.setNew (v := cb.value st.db obj2) h2'
        obtain ⟨hpk2, hrd2⟩ := hread hc1
        have hm2 : mem2 cb.model.pk = mem cb.model.pk := (hk2 _ hpkc).trans hm1
        cases he : A.exec (.insert om.model.table [mem2]) st.db with
        | error e =>
          simp only [he, Prod.mk.injEq] at hres
          obtain ⟨rfl, rfl⟩ := hres
          exact ⟨hI2, by simp⟩
        | ok db' =>
          simp only [he, Prod.mk.injEq] at hres
          obtain ⟨rfl, rfl⟩ := hres
          have hval : cb.value st.db mem2 = cb.value st.db obj2 := value_agree hA hpk2 hrd2
          obtain ⟨g1, g2, g3, g4, g5⟩ := saveInsert_res hA hC hdr hKo (mem := mem2) (by rw [hm2]; exact hnew) (by rw [hm2]; exact hn)
            (fun d hd ht => by
              intro tbl c k hk l hl
              have hdk : d.dep.other.pk = cb.model.pk :=
                hC.keys (d.dep.other.table, d.dep.other.pk) (List.mem_cons_of_mem _ (List.mem_map.2 ⟨d, hd, rfl⟩)) ht
              have := hlink hnew d hd ht tbl c k hk l hl
              rw [hdk] at this ⊢
              rwa [hm2]) hk1 h2.ne hval (exec_ok he)
          refine ⟨hI2.change1 hA.rand hA.rand0 h2.1 h2.2.2.1 h2.2.2.2 (fun v hv => ?_) g2 g3 g4 g1, ?_⟩
          · change (Cache.set _ _ _) _ = some v at hv
            rw [Cache.set_same] at hv
            exact (Option.some.inj hv).symm
          · intro db2 mem3 a h
            simp only [Except.ok.injEq, Prod.mk.injEq] at h
            obtain ⟨rfl, rfl, rfl⟩ := h
            exact ⟨hm2, κ2, hk1, fun r' hr' hv hk => g5 r' hr' (hv.trans hm2.symm) (hk.trans hk1)⟩

/-- What creating an instance leaves behind. -/
theorem createCached_inv (hA : CachedSetting A D cb) (hC : CachedIn cb om) (hI : CacheInv A.engine cb st) {mem : Row} {attr k : Val} {κ : Int}
    (hn : k ≠ .null) (hnew : ∀ r ∈ st.db.rows cb.model.table, r cb.model.pk ≠ k) (h1 : st.NewKey A.engine cb κ)
    (hlink : ∀ d ∈ cb.deps, d.dep.other.table = cb.model.table → Unlinked d.dep st.db fun _ => k) (hpko : cb.model.pk ∉ cb.own)
    (hrel : ∀ d ∈ cb.deps, ∀ r : Row, relatedRows d.dep st.db (r.set cb.model.pk k) = relatedRows d.dep st.db (r.set cb.model.pk (mem cb.model.pk)))
    {res : Except OrmErr (Db × Row × Val)} {cache' : Cache} (hres : A.createCached cb κ om mem attr k st.db st.cache = (res, cache')) :
    CacheInv A.engine cb { st with db := dbAfter st.db res, cache := cache' } ∧
    ∀ db' mem' a, res = .ok (db', mem', a) → mem' cb.model.pk = k ∧ mem' cb.field = .int κ ∧
      ∀ r' ∈ db'.rows cb.model.table, r' cb.model.pk = k → r' cb.field = mem' cb.field → cb.value db' r' = a := by
  obtain ⟨pre, post, hsaved, hcols⟩ := hC.order
  have hm := hC.model
  have hnd : ((pre ++ ⟨cb.field, .cacheKey⟩ :: post).map SaveField.col).Nodup := hsaved ▸ hC.proper.cols
  have hpkc : cb.model.pk ∉ (pre ++ ⟨cb.field, .cacheKey⟩ :: post).map SaveField.col := by rw [← hsaved, ← hm]; exact hC.proper.pk
  have hdis : ∀ c ∈ pre.map SaveField.col, c ≠ cb.field ∧ c ∉ post.map SaveField.col := by
    intro c hc
    rw [List.map_append, List.nodup_append] at hnd
    have := hnd.2.2 c hc
    refine ⟨this _ (List.mem_cons_self ..), fun h => this c (List.mem_cons_of_mem _ h) rfl⟩
  have hpost : ∀ f ∈ post, f.col ≠ cb.field := by
    intro f hf e
    rw [List.map_append, List.nodup_append] at hnd
    have := (List.nodup_cons.1 hnd.2.1).1
    exact this (List.mem_map.2 ⟨f, hf, e⟩)
  simp only [App.createCached] at hres
  rcases preSaveCached_split (A := A) (m := om.model) (db := st.db) (add := true) hnd (mem := mem) (attr := attr) h1.2.1 with
    ⟨e, hp⟩ | ⟨e, obj, hp⟩ | ⟨mem1, obj, hp, hk1, hc1, hk2⟩
  · rw [hsaved, hp] at hres
    simp only [Prod.mk.injEq] at hres
    obtain ⟨rfl, rfl⟩ := hres
    exact ⟨hI, by simp⟩
  · rw [hsaved, hp] at hres
    simp only [Prod.mk.injEq] at hres
    obtain ⟨rfl, rfl⟩ := hres
    exact ⟨hI.setNew h1, by simp⟩
  · rw [hsaved, hp] at hres
    have hI1 := hI.setNew (v := cb.value st.db obj) h1
    have hm1 : mem1 cb.model.pk = mem cb.model.pk := hk2 _ hpkc
    have hpf : cb.field ≠ cb.model.pk := by
      simp only [List.map_append, List.map_cons, List.mem_append, List.mem_cons, not_or] at hpkc
      exact fun e => hpkc.2.1 e.symm
    have hkk : (mem1.set cb.model.pk k) cb.field = .int κ := by simp [Row.set, hpf, hk1]
    have hkp : (mem1.set cb.model.pk k) cb.model.pk = k := by simp [Row.set]
    cases he : A.exec (.insert om.model.table [mem1.set om.model.pk k]) st.db with
    | error e =>
      simp only [he, Prod.mk.injEq] at hres
      obtain ⟨rfl, rfl⟩ := hres
      exact ⟨hI1, by simp⟩
    | ok db' =>
      simp only [he, Prod.mk.injEq] at hres
      obtain ⟨rfl, rfl⟩ := hres
      have hobj : ∀ c, c ∈ cb.own ∨ c ∈ cb.key.fks → mem1 c = obj c := by
        intro c hc
        simp only [List.map_append, List.map_cons, List.mem_append, List.mem_cons, not_or] at hpkc
        rcases hcols c hc with rfl | hc | ⟨f, hf, rfl, hk⟩
        · exact hc1 _ hpkc.2.1 (.inl hpkc.2.2)
        · exact hc1 c (hdis c hc).1 (.inl (hdis c hc).2)
        · exact hc1 _ (hpost f hf) (.inr ⟨f, hf, rfl, hk⟩)
      have hpk1 : mem1 cb.model.pk = obj cb.model.pk := by
        simp only [List.map_append, List.map_cons, List.mem_append, List.mem_cons, not_or] at hpkc
        exact hc1 _ hpkc.2.1 (.inl hpkc.2.2)
      have hback : mem1.set cb.model.pk (mem cb.model.pk) = mem1 := by
        funext c
        simp only [Row.set]
        split
        · rename_i e; rw [e, hm1]
        · rfl
      have hval : cb.value st.db (mem1.set cb.model.pk k) = cb.value st.db obj := by
        rw [← value_agree (db := st.db) hA hpk1 hobj]
        simp only [Callback.value]
        congr 1
        · refine List.map_congr_left fun c hc => ?_
          have : c ≠ cb.model.pk := fun e => hpko (e ▸ hc)
          simp [Row.set, this]
        · refine List.map_congr_left fun d hd => ?_
          rw [hrel d hd, hback]
      rw [hm] at he
      obtain ⟨g1, g2, g3, g4, g5⟩ := saveInsert_res hA hC hI.drawn (hI.notNull _ (List.mem_cons_self ..)) (mem := mem1.set cb.model.pk k)
        (by rw [hkp]; exact hnew) (by rw [hkp]; exact hn)
        (fun d hd ht => by
          intro tbl c k' hk l hl
          have hdk : d.dep.other.pk = cb.model.pk :=
            hC.keys (d.dep.other.table, d.dep.other.pk) (List.mem_cons_of_mem _ (List.mem_map.2 ⟨d, hd, rfl⟩)) ht
          have := hlink d hd ht tbl c k' hk l hl
          rw [hdk, hkp]
          exact this) hkk h1.ne hval (by rw [hm]; exact exec_ok he)
      refine ⟨hI1.change1 hA.rand hA.rand0 h1.1 h1.2.2.1 h1.2.2.2 (fun v hv => ?_) g2 g3 g4 g1, ?_⟩
      · change (st.cache.set _ _) _ = some v at hv
        rw [Cache.set_same] at hv
        exact (Option.some.inj hv).symm
      · intro db2 mem2 a h
        simp only [Except.ok.injEq, Prod.mk.injEq] at h
        obtain ⟨rfl, rfl, rfl⟩ := h
        rw [hm]
        exact ⟨hkp, hkk, fun r' hr' hv hk => g5 r' hr' (hv.trans hkp.symm) (hk.trans hkk)⟩
end

end

end Denorm
