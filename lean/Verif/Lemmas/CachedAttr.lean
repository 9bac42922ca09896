import Verif.Spec.CachedAttr
import Verif.Lemmas.BulkUnsafe
import Verif.Props.Cached
/-!
# Lemmas about refresh_from_db() and @cached attributes
-/
namespace Denorm

section
variable {A : App} {D : List Denorm} {cb : Callback} {om : OrmModel} {st st1 : CacheState} {cols : List Col} {db : Db} {cache : Cache}

theorem cacheName_text {s : String} {i : Int} (hs : NoNumber s) : cacheName (.text s) ≠ cacheName (.int i) := by
  intro h
  simp only [cacheName, Val.format] at h
  have h := congrArg String.toList h
  simp only [String.toList_append, List.append_cancel_left_eq] at h
  exact hs i (String.toList_inj.1 h)

theorem cacheName_text_inj {s t : String} (h : cacheName (.text s) = cacheName (.text t)) : s = t := by
  simp only [cacheName, Val.format] at h
  have h := congrArg String.toList h
  simp only [String.toList_append, List.append_cancel_left_eq] at h
  exact String.toList_inj.1 h

theorem bracket_notin_int : ∀ i : Int, '[' ∉ (toString i).toList
  | .ofNat n, h => by
    rw [show toString (Int.ofNat n) = Nat.repr n from rfl, Nat.toList_repr] at h
    have := Nat.isDigit_of_mem_toDigits (by decide) (by decide) h
    exact absurd this (by decide)
  | .negSucc n, h => by
    rw [show toString (Int.negSucc n) = "-" ++ Nat.repr (n + 1) from rfl, String.toList_append, Nat.toList_repr, List.mem_append] at h
    rcases h with h | h
    · exact absurd h (by decide)
    · have := Nat.isDigit_of_mem_toDigits (by decide) (by decide) h
      exact absurd this (by decide)

theorem setCached_hit {obj : Row} {v w : Val} (h : cache (cacheName v) = some w) (hw : w.truthy = true) : setCached cb db obj v cache = (w, cache) := by
  simp only [setCached, h, if_pos hw]

/-- Entries under texts are what the texts say. -/
def Honest (cache : Cache) : Prop := ∀ s, NoNumber s → ∀ w, cache (cacheName (.text s)) = some w → w = .text s

theorem preSaveCached_other {κ : Int} {m : Model} {add : Bool} {n : String} (hn : n ≠ cacheName (.int κ)) :
    ∀ (fs : List SaveField) (mem : Row) (attr : Val) (cache : Cache), (preSaveCached A cb κ m db add fs mem attr cache).2 n = cache n
  | [], _, _, _ => rfl
  | f :: fs, mem, attr, cache => by
    rw [preSaveCached]
    by_cases hf : f.col = cb.field
    · rw [if_pos hf, preSaveCached_other hn fs, setCached_other hn]
    · rw [if_neg hf]
      cases f.preSave A m db add mem with
      | ok v => exact preSaveCached_other hn fs _ _ _
      | error e => rfl

theorem saveCached_other {κ1 κ2 : Int} {mem : Row} {attr : Val} {n : String} (h1 : n ≠ cacheName (.int κ1)) (h2 : n ≠ cacheName (.int κ2)) :
    (A.saveCached cb κ1 κ2 om mem attr db cache).2 n = cache n := by
  have e1 := preSaveCached_other (A := A) (cb := cb) (m := om.model) (db := db) (add := false) h1 om.saved mem attr cache
  unfold App.saveCached
  rcases hp : preSaveCached A cb κ1 om.model db false om.saved mem attr cache with ⟨x, c1⟩
  rw [hp] at e1
  cases x with
  | error e => exact e1
  | ok p =>
    obtain ⟨mem1, a1⟩ := p
    by_cases hc : (db.rows om.model.table).any (isRowOf om.model (mem om.model.pk)) = true
    · simp only [hc, if_true]
      cases A.exec (saveUpdate om mem1) db <;> exact e1
    · simp only [hc]
      have e2 := preSaveCached_other (A := A) (cb := cb) (m := om.model) (db := db) (add := true) h2 om.saved mem1 a1 c1
      rcases hp2 : preSaveCached A cb κ2 om.model db true om.saved mem1 a1 c1 with ⟨y, c2⟩
      rw [hp2] at e2
      cases y with
      | error e => exact e2.trans e1
      | ok q =>
        obtain ⟨mem2, a2⟩ := q
        simp only []
        cases A.exec (.insert om.model.table [mem2]) db <;> exact e2.trans e1

theorem createCached_other {κ : Int} {mem : Row} {attr k : Val} {n : String} (h1 : n ≠ cacheName (.int κ)) :
    (A.createCached cb κ om mem attr k db cache).2 n = cache n := by
  have e1 := preSaveCached_other (A := A) (cb := cb) (m := om.model) (db := db) (add := true) h1 om.saved mem attr cache
  unfold App.createCached
  rcases hp : preSaveCached A cb κ om.model db true om.saved mem attr cache with ⟨x, c1⟩
  rw [hp] at e1
  cases x with
  | error e => exact e1
  | ok p =>
    obtain ⟨mem1, a1⟩ := p
    simp only []
    cases A.exec (.insert om.model.table [mem1.set om.model.pk k]) db <;> exact e1

/-- What the other steps write under texts: nothing. -/
theorem honest_step (hI : CacheInv A.engine cb st) (h : Honest st.cache) (hs : CacheStep A cb om st st1) : Honest st1.cache := by
  have hh : (∀ s, NoNumber s → ∀ w, st1.cache (cacheName (.text s)) = some w → st.cache (cacheName (.text s)) = some w) → Honest st1.cache :=
    fun g s hs w hw => h s hs w (g s hs w hw)
  refine hh fun s hs' w hw => ?_
  cases hs with
  | stmt => exact hw
  | marks => exact hw
  | load hr =>
    obtain ⟨i, _, hi⟩ := hI.ints _ (List.mem_cons_self ..) _ hr
    rw [← hw]
    exact (setCached_other (by rw [hi]; exact cacheName_text hs')).symm
  | construct => rw [← hw]; exact (setCached_other (cacheName_text hs')).symm
  | save => rw [← hw]; exact (saveCached_other (cacheName_text hs') (cacheName_text hs')).symm
  | create => rw [← hw]; exact (createCached_other (cacheName_text hs')).symm
  | evict =>
    simp only [Cache.evict] at hw
    split at hw
    · cases hw
    · exact hw
  | other => rw [← hw]; exact (Cache.set_other (cacheName_text hs')).symm
  | savepoint => exact hw
  | release => exact hw
  | rollback => exact hw

theorem refreshFields_skip {r : Row} {v : Val} : ∀ {cs : List Col} {mem : Row} {attr : Val} {cache : Cache}, cb.field ∉ cs →
    (refreshFields cb db r v cs mem attr cache).2 = (attr, cache) ∧
    ∀ c, (refreshFields cb db r v cs mem attr cache).1 c = if c ∈ cs then r c else mem c
  | [], _, _, _, _ => ⟨rfl, fun _ => rfl⟩
  | c :: cs, mem, attr, cache, h => by
    have hc : c ≠ cb.field := fun e => h (e ▸ List.mem_cons_self ..)
    rw [refreshFields, if_neg hc]
    obtain ⟨h1, h2⟩ := refreshFields_skip (r := r) (v := v) (cs := cs) (mem := mem.set c (r c)) (attr := attr) (cache := cache) fun g => h (List.mem_cons_of_mem _ g)
    refine ⟨h1, fun c' => ?_⟩
    rw [h2]
    by_cases h3 : c' ∈ cs
    · rw [if_pos h3, if_pos (List.mem_cons_of_mem _ h3)]
    · rw [if_neg h3]
      by_cases h4 : c' = c
      · rw [if_pos (h4 ▸ List.mem_cons_self ..), h4, Row.set, if_pos rfl]
      · rw [if_neg fun g => (List.mem_cons.1 g).elim h4 h3, Row.set, if_neg h4]

theorem refreshFields_append {r : Row} {v : Val} {ds : List Col} : ∀ {cs : List Col} {mem : Row} {attr : Val} {cache : Cache},
    refreshFields cb db r v (cs ++ ds) mem attr cache =
      refreshFields cb db r v ds (refreshFields cb db r v cs mem attr cache).1 (refreshFields cb db r v cs mem attr cache).2.1 (refreshFields cb db r v cs mem attr cache).2.2
  | [], _, _, _ => rfl
  | c :: cs, mem, attr, cache => by
    by_cases h : c = cb.field
    · simp only [List.cons_append, refreshFields, if_pos h]
      exact refreshFields_append
    · simp only [List.cons_append, refreshFields, if_neg h]
      exact refreshFields_append

/-- refresh_from_db(), where the model's columns are `pre`, the `@cached` field and `post`. -/
theorem refreshFields_eq {r : Row} {v : Val} {pre post : List Col} {mem : Row} {attr : Val} (h1 : cb.field ∉ pre) (h2 : cb.field ∉ post) :
    ∃ m : Row, (∀ c, m c = if c ∈ pre then r c else mem c) ∧
      (refreshFields cb db r v (pre ++ cb.field :: post) mem attr cache).2 = setCached cb db m v cache ∧
      ∀ c, (refreshFields cb db r v (pre ++ cb.field :: post) mem attr cache).1 c = if c ∈ pre ++ post then r c else mem c := by
  obtain ⟨e1, e2⟩ := refreshFields_skip (cb := cb) (db := db) (r := r) (v := v) (mem := mem) (attr := attr) (cache := cache) h1
  refine ⟨_, e2, ?_⟩
  rw [refreshFields_append, refreshFields, if_pos rfl]
  have e3 : (refreshFields cb db r v pre mem attr cache).2.2 = cache := by rw [e1]
  rw [e3]
  obtain ⟨e4, e5⟩ := refreshFields_skip (cb := cb) (db := db) (r := r) (v := v) (mem := (refreshFields cb db r v pre mem attr cache).1)
    (attr := (setCached cb db (refreshFields cb db r v pre mem attr cache).1 v cache).1) (cache := (setCached cb db (refreshFields cb db r v pre mem attr cache).1 v cache).2) h2
  refine ⟨e4, fun c => ?_⟩
  rw [e5, e2]
  by_cases g1 : c ∈ post
  · rw [if_pos g1, if_pos (List.mem_append_right _ g1)]
  · rw [if_neg g1]
    by_cases g2 : c ∈ pre
    · rw [if_pos g2, if_pos (List.mem_append_left _ g2)]
    · rw [if_neg g2, if_neg fun g => (List.mem_append.1 g).elim g2 g1]

theorem refreshCached_eq {r m : Row} {pre post : List Col} {mem : Row} {attr : Val} (h1 : cb.field ∉ pre) (h2 : cb.field ∉ post) (hm : ∀ c, m c = if c ∈ pre then r c else mem c)
    (hf : (db.rows cb.model.table).find? (fun r => Val.sqlEq (r cb.model.pk) (mem cb.model.pk)) = some r) {v : Val} {c1 : Cache} (hl : loadCached cb db r cache = (v, c1)) :
    ∃ mem', refreshCached cb (pre ++ cb.field :: post) db mem attr cache = some (mem', setCached cb db m v c1) ∧ ∀ c, mem' c = if c ∈ pre ++ post then r c else mem c := by
  obtain ⟨m', e1, e2, e3⟩ := refreshFields_eq (cb := cb) (db := db) (r := r) (v := v) (mem := mem) (attr := attr) (cache := c1) h1 h2
  have em : m' = m := funext fun c => (e1 c).trans (hm c).symm
  subst em
  refine ⟨_, ?_, e3⟩
  simp only [refreshCached, hf, hl, ← e2]

/-- The invariant: what is known in C17, and what is cached under texts. -/
structure RefreshInv (E : Engine) (cb : Callback) (st : CacheState) : Prop where
  inv : CacheInv E cb st
  honest : Honest st.cache

theorem load_right (h : CacheInv A.engine cb st) {r : Row} (hr : r ∈ st.db.rows cb.model.table) : (loadCached cb st.db r st.cache).1 = cb.value st.db r := by
  rcases setCached_value (cb := cb) (db := st.db) (obj := r) (value := r cb.field) (cache := st.cache) with h1 | h1
  · exact h.right _ (List.mem_cons_self ..) r hr _ h1
  · exact h1

theorem refresh_right (hA : CachedSetting A D cb) (hC : CachedIn cb om) (hT : cb.Texts) (hL : CachedLast cb cols) (h : RefreshInv A.engine cb st) {mem mem' : Row} {attr attr' : Val} {cache' : Cache}
    (hr : refreshCached cb cols st.db mem attr st.cache = some (mem', attr', cache')) :
    (∃ r ∈ st.db.rows cb.model.table, r cb.model.pk = mem cb.model.pk ∧ attr' = cb.value st.db r ∧ ∀ c ∈ cols, c ≠ cb.field → mem' c = r c) ∧ RefreshInv A.engine cb { st with cache := cache' } := by
  obtain ⟨pre, post, hcols, hpre, hpost, hown⟩ := hL
  unfold refreshCached at hr
  cases hf : (st.db.rows cb.model.table).find? (fun r => Val.sqlEq (r cb.model.pk) (mem cb.model.pk)) with
  | none => rw [hf] at hr; cases hr
  | some r =>
    rw [hf] at hr
    simp only [Option.some.injEq] at hr
    have hmem : r ∈ st.db.rows cb.model.table := List.mem_of_find?_eq_some hf
    have hq : Val.sqlEq (r cb.model.pk) (mem cb.model.pk) = true := by simpa using List.find?_some hf
    have hpk : r cb.model.pk = mem cb.model.pk := (Val.sqlEq_iff.1 hq).1
    have hload := load_right h.inv hmem
    have hstep : CacheStep A cb om st { st with cache := (loadCached cb st.db r st.cache).2 } := .load hmem
    have hI1 := cacheInv_step hA hC h.inv hstep
    have hH1 := honest_step h.inv h.honest hstep
    rw [hload] at hr
    subst hcols
    obtain ⟨m, e1, e2, e3⟩ := refreshFields_eq (cb := cb) (db := st.db) (r := r) (v := cb.value st.db r) (mem := mem) (attr := attr) (cache := (loadCached cb st.db r st.cache).2) hpre hpost
    rw [hr] at e2 e3
    have hv : cb.value st.db m = cb.value st.db r := by
      refine value_own hA.declared.this hA.generic ?_ fun c hc => ?_
      · rw [e1]
        by_cases g : cb.model.pk ∈ pre
        · rw [if_pos g]
        · rw [if_neg g, hpk]
      · rw [e1]
        rcases hown c (List.mem_append.1 hc) with g | g
        · rw [if_pos g]
        · subst g
          by_cases g : cb.model.pk ∈ pre
          · rw [if_pos g]
          · rw [if_neg g, hpk]
    obtain ⟨s, hs, hn⟩ := hT st.db r
    have hattr : attr' = (setCached cb st.db m (cb.value st.db r) (loadCached cb st.db r st.cache).2).1 := congrArg Prod.fst e2
    have hcache : cache' = (setCached cb st.db m (cb.value st.db r) (loadCached cb st.db r st.cache).2).2 := congrArg Prod.snd e2
    refine ⟨⟨r, hmem, hpk, ?_, fun c hc hne => ?_⟩, ⟨?_, ?_⟩⟩
    · rw [hattr]
      rcases setCached_value (cb := cb) (db := st.db) (obj := m) (value := cb.value st.db r) (cache := (loadCached cb st.db r st.cache).2) with g | g
      · rw [hs] at g ⊢
        exact hH1 s hn _ g
      · rw [g, hv]
    · refine (e3 c).trans (if_pos ?_)
      rcases List.mem_append.1 hc with g | g
      · exact List.mem_append_left _ g
      · rcases List.mem_cons.1 g with g | g
        · exact absurd g hne
        · exact List.mem_append_right _ g
    · have hoth : ∀ i : Int, cache' (cacheName (.int i)) = (loadCached cb st.db r st.cache).2 (cacheName (.int i)) := fun i => by
        rw [hcache]
        exact setCached_other (by rw [hs]; exact (cacheName_text hn).symm)
      refine ⟨hI1.pks, hI1.notNull, hI1.ints, hI1.future, fun n hd => (hoth _).trans (hI1.empty n hd), hI1.same, fun db hdb r' hr' v hv' => ?_⟩
      refine hI1.right db hdb r' hr' v ?_
      obtain ⟨i, _, hi⟩ := hI1.ints db hdb r' hr'
      change cache' (cacheName (r' cb.field)) = some v at hv'
      change (loadCached cb st.db r st.cache).2 (cacheName (r' cb.field)) = some v
      rw [hi] at hv' ⊢
      rw [← hoth, hv']
    · intro t ht w hw
      change cache' (cacheName (.text t)) = some w at hw
      rw [hcache] at hw
      by_cases hst : t = s
      · subst hst
        rw [← hs] at hw ⊢
        rcases setCached_same hw with g | g
        · rw [hs] at g ⊢
          exact hH1 t ht w g
        · rw [g, hv]
      · rw [setCached_other (by rw [hs]; exact fun e => hst (cacheName_text_inj e))] at hw
        exact hH1 t ht w hw

theorem refreshInv_run (hA : CachedSetting A D cb) (hC : CachedIn cb om) (hT : cb.Texts) (hL : CachedLast cb cols) {st0 : CacheState} (h0 : st0.Initial A.engine cb)
    (h : RefreshRun A cb om cols st0 st) : RefreshInv A.engine cb st := by
  induction h with
  | refl => exact ⟨cacheInv_initial h0, fun s _ w hw => by rw [h0.cache] at hw; cases hw⟩
  | step _ hs ih =>
    cases hs with
    | other hs => exact ⟨cacheInv_step hA hC ih.inv hs, honest_step ih.inv ih.honest hs⟩
    | refresh hr => exact (refresh_right hA hC hT hL ih hr).2

end

end Denorm
