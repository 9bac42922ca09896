import Verif.Lemmas.Cached
import Verif.Props.Save
/-!
# C17: `@cached` attributes are never stale

Proved for every history of statements, saves, loads, evictions and rollbacks, for functions that read what is saved before them; refuted
for instances with the default key, for functions that read the primary key of an instance that is being created, and for functions
that read a field that is computed after them.
-/
namespace Denorm

section
variable {A : App} {D : List Denorm} {cb : Callback} {om : OrmModel} {st0 st : CacheState}

theorem cacheInv_initial (h : st0.Initial A.engine cb) : CacheInv A.engine cb st0 := by
  have hone : ∀ db ∈ st0.db :: st0.savepoints, db = st0.db := by
    rw [h.savepoints]
    exact fun db hdb => List.mem_singleton.1 hdb
  refine ⟨?_, ?_, ?_, ?_, fun n _ => h.cache _, ?_, fun db hdb r hr v hv => by rw [h.cache] at hv; cases hv⟩
  · intro db hdb; rw [hone db hdb]; exact h.pks
  · intro db hdb; rw [hone db hdb]; exact h.notNull
  · intro db hdb r hr
    rw [hone db hdb] at hr
    obtain ⟨i, h1, h2, _⟩ := h.ints r hr
    exact ⟨i, h1, h2⟩
  · intro db hdb r hr n hn e
    rw [hone db hdb] at hr
    obtain ⟨i, _, h2, h3⟩ := h.ints r hr
    exact h3 n hn (Val.int.inj (h2.symm.trans e))
  · intro db hdb db' hdb' r hr r' hr' e
    rw [hone db hdb] at hr ⊢
    rw [hone db' hdb'] at hr' ⊢
    rw [mem_of_pk h.keys hr hr' e]

/-- Every database is, apart from its markers, one that was there before. -/
theorem CacheInv.of_rows {st1 : CacheState} (h : CacheInv A.engine cb st) (hd : st1.db.draws = st.db.draws) (hc : st1.cache = st.cache)
    (hsub : ∀ db ∈ st1.db :: st1.savepoints, ∃ db1 ∈ st.db :: st.savepoints, db.rows = db1.rows) : CacheInv A.engine cb st1 := by
  have hval : ∀ {db db1 : Db} {r : Row}, db.rows = db1.rows → cb.value db r = cb.value db1 r := by
    intro db db1 r e
    simp only [Callback.value]
    congr 1
    exact List.map_congr_left fun d _ => by rw [related_rows e]
  refine ⟨fun db hdb => ?_, fun db hdb => ?_, fun db hdb => ?_, fun db hdb => ?_, by rw [hd, hc]; exact h.empty, fun db hdb db' hdb' => ?_,
    fun db hdb => ?_⟩
  · obtain ⟨db1, h1, h2⟩ := hsub db hdb
    rw [h2]; exact h.pks db1 h1
  · obtain ⟨db1, h1, h2⟩ := hsub db hdb
    intro p hp
    rw [h2]; exact h.notNull db1 h1 p hp
  · obtain ⟨db1, h1, h2⟩ := hsub db hdb
    rw [h2]; exact h.ints db1 h1
  · obtain ⟨db1, h1, h2⟩ := hsub db hdb
    rw [h2, hd]; exact h.future db1 h1
  · obtain ⟨db1, h1, h2⟩ := hsub db hdb
    obtain ⟨db2, h3, h4⟩ := hsub db' hdb'
    rw [h2, h4]
    intro r hr r' hr' e
    rw [hval h2, hval h4]
    exact h.same db1 h1 db2 h3 r hr r' hr' e
  · obtain ⟨db1, h1, h2⟩ := hsub db hdb
    rw [h2, hc]
    intro r hr v hv
    rw [hval h2]
    exact h.right db1 h1 r hr v hv

theorem cacheInv_step (hA : CachedSetting A D cb) (hC : CachedIn cb om) {st1 : CacheState} (h : CacheInv A.engine cb st)
    (hs : CacheStep A cb om st st1) : CacheInv A.engine cb st1 := by
  have hcur : st.db ∈ st.db :: st.savepoints := List.mem_cons_self ..
  cases hs with
  | stmt hL hS ha he =>
    obtain ⟨g1, g2, g3, g4⟩ := stmtRes_apart hA h.drawn (h.notNull _ hcur) hL hS ha he none
    exact h.change hA.rand hA.rand0 (by simp) (by simp) (by simp) (by simp) g2 g3 g4 g1
  | marks =>
    refine h.of_rows rfl rfl fun db hdb => ?_
    rcases List.mem_cons.1 hdb with rfl | hdb
    · exact ⟨st.db, hcur, rfl⟩
    · exact ⟨db, List.mem_cons_of_mem _ hdb, rfl⟩
  | load hr =>
    rename_i r0
    have hsub : ∀ n v, (loadCached cb st.db r0 st.cache).2 n = some v → n ≠ cacheName (r0 cb.field) → st.cache n = some v := by
      intro n v hv hne
      rw [← hv]
      exact (setCached_other hne).symm
    refine ⟨h.pks, h.notNull, h.ints, h.future, fun n hn => ?_, h.same, fun db hdb r hr' v hv => ?_⟩
    · obtain ⟨i, _, hi⟩ := h.ints _ hcur r0 hr
      change (loadCached cb st.db r0 st.cache).2 _ = none
      rw [loadCached, setCached_other, h.empty n hn]
      intro e
      rw [hi] at e
      exact h.future _ hcur r0 hr n hn (by rw [hi, cacheName_inj e])
    · by_cases hk : cacheName (r cb.field) = cacheName (r0 cb.field)
      · have hkey : r cb.field = r0 cb.field := by
          obtain ⟨i, _, hi⟩ := h.ints _ hcur r0 hr
          obtain ⟨j, _, hj⟩ := h.ints db hdb r hr'
          rw [hi, hj] at hk ⊢
          rw [cacheName_inj hk]
        rw [hk] at hv
        rw [h.same db hdb _ hcur r hr' r0 hr hkey]
        rcases setCached_same hv with h1 | h1
        · exact h.right _ hcur r0 hr v h1
        · exact h1
      · exact h.right db hdb r hr' v (hsub _ v hv hk)
  | construct =>
    rename_i obj
    refine ⟨h.pks, h.notNull, h.ints, h.future, fun n hn => ?_, h.same, fun db hdb r hr' v hv => ?_⟩
    · change (constructCached cb st.db obj st.cache).2 _ = none
      rw [constructCached, setCached_other, h.empty n hn]
      exact fun e => hA.rand0 n (cacheName_inj e)
    · refine h.right db hdb r hr' v ?_
      rw [← hv]
      refine (setCached_other fun e => ?_).symm
      obtain ⟨i, h0, hi⟩ := h.ints db hdb r hr'
      rw [hi] at e
      exact h0 (cacheName_inj e)
  | save h1 h2 h3 h4 h5 => exact (saveCached_inv hA hC h h1 h2 h3 h4 h5 rfl).1
  | create h1 h2 h3 h4 h5 h6 => exact (createCached_inv hA hC h h1 h2 h3 h4 h5 h6 rfl).1
  | evict =>
    rename_i name
    have hsub : ∀ n v, st.cache.evict name n = some v → st.cache n = some v := by
      intro n v hv
      simp only [Cache.evict] at hv
      split at hv
      · cases hv
      · exact hv
    refine ⟨h.pks, h.notNull, h.ints, h.future, fun n hn => ?_, h.same, fun db hdb r hr' v hv => h.right db hdb r hr' v (hsub _ v hv)⟩
    change st.cache.evict name _ = none
    simp only [Cache.evict]
    split
    · rfl
    · exact h.empty n hn
  | other h1 => exact h.setNew h1
  | savepoint =>
    refine h.of_rows rfl rfl fun db hdb => ?_
    rcases List.mem_cons.1 hdb with rfl | hdb
    · exact ⟨st.db, hcur, rfl⟩
    · exact ⟨db, hdb, rfl⟩
  | release he =>
    refine h.of_rows rfl rfl fun db hdb => ⟨db, ?_, rfl⟩
    rw [he]
    rcases List.mem_cons.1 hdb with rfl | hdb
    · exact List.mem_cons_self ..
    · exact List.mem_cons_of_mem _ (List.mem_cons_of_mem _ hdb)
  | rollback he =>
    rename_i db0 rest
    refine h.of_rows rfl rfl fun db hdb => ?_
    rw [he]
    rcases List.mem_cons.1 hdb with rfl | hdb
    · exact ⟨db0, by simp, rfl⟩
    · exact ⟨db, List.mem_cons_of_mem _ (List.mem_cons_of_mem _ hdb), rfl⟩

theorem cacheInv_run (hA : CachedSetting A D cb) (hC : CachedIn cb om) (h0 : st0.Initial A.engine cb) (h : CacheRun A cb om st0 st) :
    CacheInv A.engine cb st := by
  induction h with
  | refl => exact cacheInv_initial h0
  | step _ hs ih => exact cacheInv_step hA hC ih hs

/-- C17, loaded instances: after any history, the `@cached` attribute of an instance that is loaded holds what the function returns for
it at this moment, whatever the cache contains.

Missing from C17: instances that are merely constructed (see `C17_violated_default`), rows with the default key, functions that read the
primary key when instances are created without one (`C17_violated_create`), functions that read fields computed after the attribute
(`C17_violated_order`) or columns that triggers write, statements other than save() that write what the function reads of the instance
itself, and keys that are drawn twice. -/
theorem C17_load_partial (hA : CachedSetting A D cb) (hC : CachedIn cb om) (h0 : st0.Initial A.engine cb) (h : CacheRun A cb om st0 st)
    {r : Row} (hr : r ∈ st.db.rows cb.model.table) : (loadCached cb st.db r st.cache).1 = cb.value st.db r := by
  rcases setCached_value (cb := cb) (db := st.db) (obj := r) (value := r cb.field) (cache := st.cache) with h1 | h1
  · exact (cacheInv_run hA hC h0 h).right _ (List.mem_cons_self ..) r hr _ h1
  · exact h1

/-- C17, saved instances: when save() returns after any history, the `@cached` attribute of the instance in memory holds what the function
returns for the stored instance, unless a trigger has already given the row another key. -/
theorem C17_save_partial (hA : CachedSetting A D cb) (hC : CachedIn cb om) (h0 : st0.Initial A.engine cb) (h : CacheRun A cb om st0 st)
    {mem mem' : Row} {attr a : Val} {κ1 κ2 : Int} {db' : Db} {cache' : Cache}
    (hn : mem cb.model.pk ≠ .null) (h1 : st.NewKey A.engine cb κ1) (h2 : st.NewKey A.engine cb κ2) (hne : κ1 ≠ κ2)
    (hlink : (∀ r ∈ st.db.rows cb.model.table, r cb.model.pk ≠ mem cb.model.pk) →
      ∀ d ∈ cb.deps, d.dep.other.table = cb.model.table → Unlinked d.dep st.db mem)
    (hres : A.saveCached cb κ1 κ2 om mem attr st.db st.cache = (.ok (db', mem', a), cache')) :
    ∀ r' ∈ db'.rows cb.model.table, r' cb.model.pk = mem cb.model.pk → r' cb.field = mem' cb.field → a = cb.value db' r' := by
  obtain ⟨_, κ, _, g⟩ := (saveCached_inv hA hC (cacheInv_run hA hC h0 h) hn h1 h2 hne hlink hres).2 db' mem' a rfl
  exact fun r' hr' hv hk => (g r' hr' hv hk).symm

/-- C17, newly created instances. -/
theorem C17_create_partial (hA : CachedSetting A D cb) (hC : CachedIn cb om) (h0 : st0.Initial A.engine cb) (h : CacheRun A cb om st0 st)
    {mem mem' : Row} {attr a k : Val} {κ : Int} {db' : Db} {cache' : Cache}
    (hn : k ≠ .null) (hnew : ∀ r ∈ st.db.rows cb.model.table, r cb.model.pk ≠ k) (h1 : st.NewKey A.engine cb κ)
    (hlink : ∀ d ∈ cb.deps, d.dep.other.table = cb.model.table → Unlinked d.dep st.db fun _ => k) (hpk : cb.model.pk ∉ cb.own)
    (hrel : ∀ d ∈ cb.deps, ∀ r : Row, relatedRows d.dep st.db (r.set cb.model.pk k) = relatedRows d.dep st.db (r.set cb.model.pk (mem cb.model.pk)))
    (hres : A.createCached cb κ om mem attr k st.db st.cache = (.ok (db', mem', a), cache')) :
    ∀ r' ∈ db'.rows cb.model.table, r' cb.model.pk = k → r' cb.field = mem' cb.field → a = cb.value db' r' := by
  obtain ⟨_, _, g⟩ := (createCached_inv hA hC (cacheInv_run hA hC h0 h) hn hnew h1 hlink hpk hrel hres).2 db' mem' a rfl
  exact fun r' hr' hv hk => (g r' hr' hv hk).symm

/-- Saving with a cache does to the database what saving does, if Python's random source returns the keys that are drawn. -/
theorem preSaveCached_preSaveAll {κ : Int} {m : Model} {db : Db} {add : Bool} (hκ : ∀ mem, A.pyRand db mem cb.field = κ) :
    ∀ {fs : List SaveField} {mem : Row} {attr : Val} {cache : Cache}, (∀ f ∈ fs, f.col = cb.field → f.kind = .cacheKey) →
      (match (preSaveCached A cb κ m db add fs mem attr cache).1 with | .ok p => Except.ok p.1 | .error e => .error e) =
        preSaveAll A m db add fs mem
  | [], _, _, _, _ => rfl
  | f :: fs, mem, attr, cache, h => by
    rw [preSaveCached, preSaveAll]
    by_cases hf : f.col = cb.field
    · rw [if_pos hf, preSaveCached_preSaveAll hκ fun g hg => h g (List.mem_cons_of_mem _ hg)]
      have : f.preSave A m db add mem = .ok (.int κ) := by
        rw [SaveField.preSave, h f (List.mem_cons_self ..) hf]
        simp [hf, hκ]
      rw [this, hf]
    · rw [if_neg hf]
      cases hv : f.preSave A m db add mem with
      | ok v => exact preSaveCached_preSaveAll hκ fun g hg => h g (List.mem_cons_of_mem _ hg)
      | error e => rfl
end

/-! ## Examples -/

namespace Keys
set_option maxRecDepth 100000

/-- `Forum.key` as a `@cached` attribute: the name of the section, from the posts' and the section's data. -/
def forumCached : Callback :=
  { model := forum, field := "key", own := ["section_id"], deps := [⟨⟨forum, section_, .forward forumSection, []⟩, ["name"]⟩,
      ⟨⟨forum, post, .backward postForum, []⟩, ["title"]⟩],
    fn := fun _ rel => match rel with | [[n]] :: _ => n | _ => .null }

def cachedDecls : List Denorm := [forumCached.key.denorm, memberKey.denorm]

def cachedApp (b : Backend) : App :=
  ⟨⟨b, installedTriggers b cachedDecls, fun n => 100 + n⟩, [], id, fun _ _ _ => 0, 20⟩

def cachedOrm : OrmModel := ⟨forum, [⟨"section_id", .plain⟩, ⟨"key", .cacheKey⟩]⟩

theorem forumCached_setting (b : Backend) : CachedSetting (cachedApp b) cachedDecls forumCached where
  installed := rfl
  declared := {
    declared := by simp [cachedDecls]
    agree := by cases b <;> decide
    this := by simp [Callback.key, forumCached]
    watched := by decide
    keys := by decide
    fks := by decide
    links := by
      intro d hd l hl
      simp only [Callback.key, forumCached, List.mem_cons, List.not_mem_nil, or_false] at hd
      rcases hd with rfl | rfl <;> simp [Dep.m2mTable] at hl
    only := by
      intro dn hdn
      simp only [cachedDecls, List.mem_cons, List.not_mem_nil, or_false] at hdn
      rcases hdn with rfl | rfl
      · exact fun _ => rfl
      · intro h; exact absurd h (by decide) }
  noReentry := by
    apply noReentry_of (fun _ => 0)
    cases b <;> decide
  rand := fun m n h => by simp only [cachedApp] at h; omega
  rand0 := fun n => by simp only [cachedApp]; omega
  own := by
    intro c hc ⟨tr, htr, u, hu, ht, he⟩
    simp only [forumCached, List.mem_singleton] at hc
    subst hc
    have : ∀ tr ∈ installedTriggers b cachedDecls, ∀ a ∈ tr.actions, (match a with
        | .update u => u.col != "section_id"
        | _ => true) = true := by cases b <;> decide
    have := this tr htr _ hu
    simp [he] at this
  generic := by
    intro d hd g
    simp only [forumCached, List.mem_cons, List.not_mem_nil, or_false] at hd
    rcases hd with rfl | rfl <;> simp

theorem forumCached_in : CachedIn forumCached cachedOrm where
  model := rfl
  proper := ⟨by decide, by decide⟩
  keys := by decide
  order := ⟨[⟨"section_id", .plain⟩], [], rfl, fun c hc => by
    have : c = "section_id" := by
      rcases hc with hc | hc
      · simpa [forumCached] using hc
      · simpa [forumCached, Callback.key, KeyField.fks, Dep.ownKeys, forumSection, Demo.fkf] using hc
    subst this
    exact .inr (.inl (by simp))⟩

def start : CacheState := ⟨db, [], fun _ => none⟩

theorem start_initial (b : Backend) : start.Initial (cachedApp b).engine forumCached where
  savepoints := rfl
  cache := fun _ => rfl
  pks := by decide
  notNull := by unfold KeysOk; decide
  keys := by decide
  ints := by
    intro r hr
    have : r = frow 1 1 11 ∨ r = frow 2 1 12 ∨ r = frow 3 2 13 := by simpa [start, db, forumCached, forum] using hr
    rcases this with rfl | rfl | rfl
    · exact ⟨11, by decide, by decide, fun n _ => by simp only [cachedApp]; omega⟩
    · exact ⟨12, by decide, by decide, fun n _ => by simp only [cachedApp]; omega⟩
    · exact ⟨13, by decide, by decide, fun n _ => by simp only [cachedApp]; omega⟩

/-- The hypotheses of `C17_load_partial` are met on every backend by a history in which the cached value changes: forum 1 is loaded, its
section is renamed, and forum 1 is loaded again. -/
example (b : Backend) : CachedSetting (cachedApp b) cachedDecls forumCached ∧ CachedIn forumCached cachedOrm ∧
    start.Initial (cachedApp b).engine forumCached ∧
    (loadCached forumCached db (frow 1 1 11) start.cache).1 = .text "s" ∧
    ∃ st, CacheRun (cachedApp b) forumCached cachedOrm start st ∧ st.cache "CachedField_11" = some (.text "s") ∧
      ∃ r ∈ st.db.rows "forum", r "id" = .int 1 ∧ (loadCached forumCached st.db r st.cache).1 = .text "u" := by
  refine ⟨forumCached_setting b, forumCached_in, start_initial b, by decide, ?_⟩
  have h : ∃ db', (cachedApp b).engine.exec 20 rename db = .ok db' ∧ ∃ r ∈ db'.rows "forum", r "id" = .int 1 ∧
      (loadCached forumCached db' r (loadCached forumCached db (frow 1 1 11) start.cache).2).1 = .text "u" := by
    apply ok_of
    cases b <;> decide +kernel
  obtain ⟨db', h1, r, h2, h3, h4⟩ := h
  refine ⟨⟨db', [], _⟩, .step (.step .refl (.load (st := start) (r := frow 1 1 11) (by simp [start, db, forumCached, forum]))) (.stmt ?_ ?_ ?_ h1), ?_, r, h2, h3, h4⟩
  · intro p hp ht x r
    have : p.2 ≠ "name" := by
      have : ∀ p ∈ forumCached.pks, p.2 ≠ "name" := by decide
      exact this p hp
    simp [Row.set, this]
  · exact fun h => absurd h (by decide)
  · exact fun h => absurd h (by decide)
  · change (loadCached forumCached db (frow 1 1 11) fun _ => none).2 "CachedField_11" = some (.text "s")
    decide +kernel

/-- The hypotheses of `C17_save_partial` are met: forum 1 is moved to section 2. -/
example (b : Backend) : start.NewKey (cachedApp b).engine forumCached 31 ∧ start.NewKey (cachedApp b).engine forumCached 32 ∧
    ∃ db' mem' a cache', (cachedApp b).saveCached forumCached 31 32 cachedOrm (frow 1 2 11) .null start.db start.cache =
      (.ok (db', mem', a), cache') ∧ a = .text "t" ∧ cache' "CachedField_31" = some (.text "t") ∧
      ∃ r ∈ db'.rows "forum", r "id" = .int 1 ∧ r "key" = .int 31 := by
  have new : ∀ κ : Int, κ = 31 ∨ κ = 32 → start.NewKey (cachedApp b).engine forumCached κ := by
    intro κ h
    refine ⟨by omega, rfl, ?_, fun n _ => by simp only [cachedApp]; omega⟩
    intro db hdb
    have : db = Keys.db := List.mem_singleton.1 hdb
    rw [this]
    rcases h with rfl | rfl <;> decide
  refine ⟨new _ (.inl rfl), new _ (.inr rfl), ?_⟩
  have h : (match (cachedApp b).saveCached forumCached 31 32 cachedOrm (frow 1 2 11) .null start.db start.cache with
      | (.ok (db', _, a), cache') => decide (a = .text "t" ∧ cache' "CachedField_31" = some (.text "t") ∧
          ∃ r ∈ db'.rows "forum", r "id" = .int 1 ∧ r "key" = .int 31)
      | (.error _, _) => false) = true := by cases b <;> decide +kernel
  rcases hx : (cachedApp b).saveCached forumCached 31 32 cachedOrm (frow 1 2 11) .null start.db start.cache with ⟨e | ⟨db', mem', a⟩, cache'⟩
  · rw [hx] at h; cases h
  · rw [hx] at h
    exact ⟨db', mem', a, cache', rfl, of_decide_eq_true h⟩

end Keys

namespace Wall
set_option maxRecDepth 100000
open Demo (fld row)

/-- Notes with a text, a `@denormalized` copy of it and a `@cached` attribute. -/
def note : Model :=
  { repr := "<class 'app.Note'>", appLabel := "app", name := "Note", table := "note", pkTable := "note", pk := "id", ct := 1,
    fields := [fld "id", fld "text", fld "copy", fld "key"] }

def copy : Callback := { model := note, field := "copy", own := ["text"], deps := [], fn := fun own _ => own.headD .null }

/-- A `@cached` attribute that formats column `c`. -/
def shown (c : Col) : Callback :=
  { model := note, field := "key", own := [c], deps := [], fn := fun own _ => .text ("[" ++ (own.headD .null).format ++ "]") }

def decls : List Denorm := [copy.denorm, (shown "text").key.denorm]

def app (b : Backend) : App := ⟨⟨b, installedTriggers b decls, fun n => 100 + n⟩, [], id, fun _ _ _ => 0, 20⟩

theorem setting (b : Backend) (c : Col) : CachedSetting (app b) decls (shown c) where
  installed := rfl
  declared := {
    declared := by simp [decls, Callback.key, shown]
    agree := by cases b <;> exact fun g hg => absurd hg (by simp [Callback.key, KeyField.denorm, shown, Denorm.triggers])
    this := by simp [Callback.key, shown]
    watched := by simp [Callback.key, shown]
    keys := by
      change ∀ p ∈ [("note", "id")], ∀ dn ∈ decls, p ∉ dn.writes
      decide
    fks := by simp [Callback.key, shown, KeyField.fks]
    links := by simp [Callback.key, shown]
    only := by
      intro dn hdn
      simp only [decls, List.mem_cons, List.not_mem_nil, or_false] at hdn
      rcases hdn with rfl | rfl
      · intro h
        change ("note", "key") ∈ copy.denorm.writes at h
        exact absurd h (by decide)
      · exact fun _ => rfl }
  noReentry := by
    apply noReentry_of (fun _ => 0)
    cases b <;> decide
  rand := fun m n h => by simp only [app] at h; omega
  rand0 := fun n => by simp only [app]; omega
  own := by
    intro c _ ⟨tr, htr, u, hu, ht, he⟩
    have : ∀ tr ∈ installedTriggers b decls, ∀ a ∈ tr.actions, (match a with
        | .update _ => false
        | _ => true) = true := by cases b <;> decide
    have := this tr htr _ hu
    simp at this
  generic := by simp [shown]

def nrow (id : Int) (text copy : String) (key : Int) : Row :=
  row [("id", .int id), ("text", .text text), ("copy", .text copy), ("key", .int key)]

def db : Db := ⟨fun t => if t = "note" then [nrow 1 "a" "a" 11, nrow 2 "b" "b" 12] else [], [], 0⟩
def start : CacheState := ⟨db, [], fun _ => none⟩

theorem start_initial (b : Backend) (c : Col) : start.Initial (app b).engine (shown c) where
  savepoints := rfl
  cache := fun _ => rfl
  pks := by
    change ((db.rows "note").map fun r => r "id").Nodup
    decide
  notNull := by
    change ∀ p ∈ [("note", "id")], ∀ r ∈ db.rows p.1, r p.2 ≠ .null
    decide
  keys := by
    change ((db.rows "note").map fun r => r "key").Nodup
    decide
  ints := by
    intro r hr
    have : r = nrow 1 "a" "a" 11 ∨ r = nrow 2 "b" "b" 12 := by simpa [start, db, shown, note] using hr
    rcases this with rfl | rfl
    · exact ⟨11, by decide, rfl, fun n _ => by simp only [app]; omega⟩
    · exact ⟨12, by decide, rfl, fun n _ => by simp only [app]; omega⟩

theorem newKey (b : Backend) (c : Col) (κ : Int) (h : κ = 31 ∨ κ = 32) : start.NewKey (app b).engine (shown c) κ := by
  refine ⟨by omega, rfl, ?_, fun n _ => by simp only [app]; omega⟩
  intro db hdb
  have : db = Wall.db := List.mem_singleton.1 hdb
  rw [this]
  change ∀ r ∈ Wall.db.rows "note", r "key" ≠ .int κ
  rcases h with rfl | rfl <;> decide

/-- The copy is computed before the attribute. -/
def before : OrmModel := ⟨note, [⟨"text", .plain⟩, ⟨"copy", .callback copy⟩, ⟨"key", .cacheKey⟩]⟩
/-- The copy is computed after the attribute. -/
def after : OrmModel := ⟨note, [⟨"text", .plain⟩, ⟨"key", .cacheKey⟩, ⟨"copy", .callback copy⟩]⟩

example : CachedIn (shown "copy") before where
  model := rfl
  proper := ⟨by decide, by decide⟩
  keys := by decide
  order := ⟨[⟨"text", .plain⟩, ⟨"copy", .callback copy⟩], [], rfl, fun c hc => .inr (.inl (by
    rcases hc with hc | hc
    · have : c = "copy" := by simpa [shown] using hc
      simp [this]
    · simp [shown, Callback.key, KeyField.fks] at hc))⟩

theorem res_of {P : Db → Row → Val → Cache → Prop} [∀ a b c d, Decidable (P a b c d)] {x : Except OrmErr (Db × Row × Val) × Cache}
    (h : (match x with
      | (.ok (db', mem', a), cache') => decide (P db' mem' a cache')
      | (.error _, _) => false) = true) :
    ∃ db' mem' a cache', x = (.ok (db', mem', a), cache') ∧ P db' mem' a cache' := by
  rcases x with ⟨e | ⟨db', mem', a⟩, cache'⟩
  · cases h
  · exact ⟨db', mem', a, cache', rfl, of_decide_eq_true h⟩
end Wall

/-- C17 is violated by the default key 0: two instances that are constructed share a cache entry, so the attribute of the second one
shows the first one's value; and when a `@cached` field has been added to a table with rows, all of them have the key 0 and share the
value of the one that was loaded first. -/
theorem C17_violated_default (b : Backend) : ∃ (A : App) (D : List Denorm) (cb : Callback), A.engine.backend = b ∧ CachedSetting A D cb ∧
    (∃ (db : Db) (obj1 obj2 : Row) (cache : Cache), (∀ n, cache n = none) ∧
      (constructCached cb db obj2 (constructCached cb db obj1 cache).2).1 ≠ cb.value db obj2) ∧
    ∃ (db : Db) (r1 r2 : Row) (cache : Cache), (∀ n, cache n = none) ∧ r1 ∈ db.rows cb.model.table ∧ r2 ∈ db.rows cb.model.table ∧
      r1 cb.field = .int 0 ∧ r2 cb.field = .int 0 ∧
      (loadCached cb db r2 (loadCached cb db r1 cache).2).1 ≠ cb.value db r2 := by
  refine ⟨Wall.app b, Wall.decls, Wall.shown "text", rfl, Wall.setting b _, ?_, ?_⟩
  · exact ⟨Wall.db, Wall.nrow 3 "x" "x" 0, Wall.nrow 4 "y" "y" 0, fun _ => none, fun _ => rfl, by decide +kernel⟩
  · exact ⟨⟨fun t => if t = "note" then [Wall.nrow 1 "a" "a" 0, Wall.nrow 2 "b" "b" 0] else [], [], 0⟩, Wall.nrow 1 "a" "a" 0,
      Wall.nrow 2 "b" "b" 0, fun _ => none, fun _ => rfl, by simp [Wall.shown, Wall.note], by simp [Wall.shown, Wall.note], by decide, by decide,
      by decide +kernel⟩

/-- C17 is violated when the function reads the primary key: an instance that is created gets its key from the database only after the
function was evaluated, and the value without primary key stays in the cache: it is what the instance shows whenever it is loaded. -/
theorem C17_violated_create (b : Backend) : ∃ (A : App) (D : List Denorm) (cb : Callback) (om : OrmModel) (st : CacheState) (mem : Row)
    (k : Val) (κ : Int), A.engine.backend = b ∧ CachedSetting A D cb ∧ CachedIn cb om ∧ st.Initial A.engine cb ∧ mem cb.model.pk = .null ∧ k ≠ .null ∧
    (∀ r ∈ st.db.rows cb.model.table, r cb.model.pk ≠ k) ∧ st.NewKey A.engine cb κ ∧ cb.deps = [] ∧
    ∃ db' mem' a cache', A.createCached cb κ om mem .null k st.db st.cache = (.ok (db', mem', a), cache') ∧
      ∃ r ∈ db'.rows cb.model.table, r cb.model.pk = k ∧ (loadCached cb db' r cache').1 ≠ cb.value db' r := by
  refine ⟨Wall.app b, Wall.decls, Wall.shown "id", Wall.before, Wall.start,
    Demo.row [("id", .null), ("text", .text "c"), ("copy", .text "c"), ("key", .int 0)], .int 3, 31,
    rfl, Wall.setting b _, ?_, Wall.start_initial b _, rfl, by decide, by decide, Wall.newKey b _ _ (.inl rfl), rfl, ?_⟩
  · exact ⟨rfl, ⟨by decide, by decide⟩, by decide, ⟨[⟨"text", .plain⟩, ⟨"copy", .callback Wall.copy⟩], [], rfl, fun c hc => .inl (by
      rcases hc with hc | hc
      · simpa [Wall.shown, Wall.note] using hc
      · simp [Wall.shown, Callback.key, KeyField.fks] at hc)⟩⟩
  · apply Wall.res_of
    cases b <;> decide +kernel

/-- C17 is violated when the function reads a field that is computed after the attribute: save() evaluates the function with the old
value of that field, and the result stays in the cache under the new key. -/
theorem C17_violated_order (b : Backend) : ∃ (A : App) (D : List Denorm) (cb : Callback) (om : OrmModel) (st : CacheState) (mem : Row)
    (κ1 κ2 : Int), A.engine.backend = b ∧ CachedSetting A D cb ∧ om.Proper ∧ om.model = cb.model ∧ st.Initial A.engine cb ∧ mem ∈ st.db.rows cb.model.table ∧
    (∀ c ∈ cb.own, c ∈ om.cols) ∧ st.NewKey A.engine cb κ1 ∧ st.NewKey A.engine cb κ2 ∧ κ1 ≠ κ2 ∧ cb.deps = [] ∧
    ∃ db' mem' a cache', A.saveCached cb κ1 κ2 om (mem.set "text" (.text "z")) .null st.db st.cache = (.ok (db', mem', a), cache') ∧
      ∃ r ∈ db'.rows cb.model.table, r cb.model.pk = mem cb.model.pk ∧ (loadCached cb db' r cache').1 ≠ cb.value db' r := by
  refine ⟨Wall.app b, Wall.decls, Wall.shown "copy", Wall.after, Wall.start, Wall.nrow 1 "a" "a" 11, 31, 32,
    rfl, Wall.setting b _, ⟨by decide, by decide⟩, rfl, Wall.start_initial b _, by simp [Wall.start, Wall.db, Wall.shown, Wall.note], by decide,
    Wall.newKey b _ _ (.inl rfl), Wall.newKey b _ _ (.inr rfl), by decide, rfl, ?_⟩
  apply Wall.res_of
  cases b <;> decide +kernel

end Denorm
