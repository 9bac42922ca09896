import Verif.Lemmas.DeleteCached
import Verif.Props.Cached
import Verif.Props.Collector
/-!
# delete() and `@cached` attributes (C94)
-/
namespace Denorm

section
variable {A : App} {D : List Denorm} {cb : Callback} {om : OrmModel} {P : Collector} {st0 st : CacheState}

/-- **C94, partial.** Whatever objects are deleted through the ORM, and whenever: an instance that is loaded afterwards has the `@cached` value that
the function returns for it then. Missing: references with SET_NULL in what the function reads of the instance itself, for which it is false
(`C94_violated`), many-to-many relations with DO_NOTHING (as in C93), and what is missing from C17. -/
theorem C94_load_partial (hA : CachedSetting A D cb) (hC : CachedIn cb om) (h0 : st0.Initial A.engine cb) (hF : P.Fits A.engine cb) (hS : P.Sorted cb)
    (hGd : P.GuardsLinks cb) (hN : P.SparesCached cb) (h : DeleteRun A cb om P st0 st) {r : Row} (hr : r ∈ st.db.rows cb.model.table) :
    (loadCached cb st.db r st.cache).1 = cb.value st.db r :=
  C17_load_partial hA hC h0 (cacheRun_deletes hF hS hGd hN h) hr

/-- **C94, partial.** An instance for which the function returns something else after a deletion has another cache key: rows with the same key
before and after have the same value. (`cb.fn` is any function of the columns that the dependencies name.) -/
theorem C94_renewed_partial (hA : CachedSetting A D cb) (hC : CachedIn cb om) (h0 : st0.Initial A.engine cb) (hF : P.Fits A.engine cb) (hS : P.Sorted cb)
    (hGd : P.GuardsLinks cb) (hN : P.SparesCached cb) (h : DeleteRun A cb om P st0 st) {t : TableName} {keys : List Val} {db' : Db}
    (hd : A.engine.deleteObjects P A.fuel t keys st.db = .ok db') {r r' : Row} (hr : r ∈ st.db.rows cb.model.table)
    (hr' : r' ∈ db'.rows cb.model.table) (hk : r' cb.field = r cb.field) : cb.value db' r' = cb.value st.db r := by
  have h1 : CacheRun A cb om st0 { st with savepoints := st.db :: st.savepoints } := .step (cacheRun_deletes hF hS hGd hN h) .savepoint
  have h2 := cacheRun_trans h1 (cacheRun_delete (t := t) (keys := keys) (db' := db') hF hS hGd hN hd)
  exact (cacheInv_run hA hC h0 h2).same _ (List.mem_cons_self ..) _ (List.mem_cons_of_mem _ (List.mem_cons_self ..)) _ hr' _ hr hk

end

theorem deleted_of {x : Except DeleteErr Db} {Q : Db → Prop} [DecidablePred Q] (h : (match x with
    | .ok db' => decide (Q db')
    | .error _ => false) = true) : ∃ db', x = .ok db' ∧ Q db' := by
  cases x with
  | ok db' => exact ⟨db', rfl, of_decide_eq_true h⟩
  | error e => cases h

set_option maxRecDepth 100000

namespace Keys

theorem unmanaged_but (b : Backend) {t : TableName} {c : Col} (hc : c ≠ "key") : ¬ Managed (cachedApp b).engine t c := by
  rintro ⟨tr, htr, u, hu, ht, he⟩
  have : ∀ tr ∈ installedTriggers b cachedDecls, ∀ a ∈ tr.actions, (match a with
      | .update u => u.col == "key"
      | _ => true) = true := by cases b <;> decide
  have := this tr htr _ hu
  simp only [beq_iff_eq] at this
  exact hc (he ▸ this)

/-- Posts go with their forum and bookmarks with their post and member; what becomes of forums without a section is left open. -/
def collector (on : OnDelete) : Collector where
  pk _ := "id"
  refs := [⟨"forum", "section_id", "section", on, none⟩, ⟨"post", "forum_id", "forum", .cascade, none⟩,
    ⟨"member_bookmarks", "member_id", "member", .cascade, none⟩, ⟨"member_bookmarks", "post_id", "post", .cascade, none⟩]
  order l := if "member_bookmarks" ∈ l then "member_bookmarks" :: l else l

theorem collector_cols (on : OnDelete) : ∀ f ∈ (collector on).refs, f.col ≠ "key" ∧ f.ct = none ∧ f.col ≠ "id" := by
  cases on <;> decide

theorem collector_order (on : OnDelete) : ∀ l, ∀ t ∈ l, t ∈ (collector on).order l := by
  intro l t ht
  simp only [collector]
  split
  · exact List.mem_cons_of_mem _ ht
  · exact ht

theorem fits (b : Backend) (on : OnDelete) : (collector on).Fits (cachedApp b).engine forumCached where
  order := collector_order on
  pks := fun p hp => by
    have : ∀ p ∈ forumCached.pks, p.2 = "id" := by decide
    exact (this p hp).symm
  keys := fun t => unmanaged_but b (by simp [collector])
  cols := fun f hf => ⟨unmanaged_but b (collector_cols on f hf).1, fun p hp => by rw [(collector_cols on f hf).2.1] at hp; cases hp⟩
  links := by
    intro d hd tbl c k hm
    simp only [forumCached, List.mem_cons, List.not_mem_nil, or_false] at hd
    rcases hd with rfl | rfl <;> simp [Dep.m2mTable] at hm
  nulls := fun f hf _ => (collector_cols on f hf).2.2

theorem sorted (on : OnDelete) : (collector on).Sorted forumCached := by
  intro d hd tbl c k hm
  simp only [forumCached, List.mem_cons, List.not_mem_nil, or_false] at hd
  rcases hd with rfl | rfl <;> simp [Dep.m2mTable] at hm

/-- `Member.key` as a `@cached` attribute: the title of the bookmarked post. -/
def memberCached : Callback :=
  { model := member, field := "key", own := [], deps := memberKey.deps, fn := fun _ rel => match rel with | [[n]] :: _ => n | _ => .null }

def memberOrm : OrmModel := ⟨member, [⟨"key", .cacheKey⟩]⟩

theorem memberCached_setting (b : Backend) : CachedSetting (cachedApp b) cachedDecls memberCached where
  installed := rfl
  declared := {
    declared := by simp [cachedDecls, memberCached, Callback.key, memberKey]
    agree := by cases b <;> decide
    this := by simp [Callback.key, memberCached, memberKey]
    watched := by decide
    keys := by decide
    fks := by decide
    links := by
      intro d hd l hl
      simp only [Callback.key, memberCached, memberKey, List.mem_singleton] at hd
      subst hd
      simp only [Dep.m2mTable, Option.mem_def, Option.some.injEq] at hl
      subst hl
      decide
    only := by
      intro dn hdn
      simp only [cachedDecls, List.mem_cons, List.not_mem_nil, or_false] at hdn
      rcases hdn with rfl | rfl
      · intro h; exact absurd h (by decide)
      · exact fun _ => rfl }
  noReentry := (forumCached_setting b).noReentry
  rand := (forumCached_setting b).rand
  rand0 := (forumCached_setting b).rand0
  own := by simp [memberCached]
  generic := by
    intro d hd g
    simp only [memberCached, memberKey, List.mem_singleton] at hd
    subst hd; simp

theorem memberCached_in : CachedIn memberCached memberOrm where
  model := rfl
  proper := ⟨by decide, by decide⟩
  keys := by decide
  order := ⟨[], [], rfl, fun c hc => by
    rcases hc with hc | hc
    · simp [memberCached] at hc
    · simp [memberCached, memberKey, Callback.key, KeyField.fks, Dep.ownKeys] at hc⟩

theorem member_initial (b : Backend) : start.Initial (cachedApp b).engine memberCached where
  savepoints := rfl
  cache := fun _ => rfl
  pks := by decide
  notNull := by unfold KeysOk; decide
  keys := by decide
  ints := by
    intro r hr
    have : r = mrow 1 21 ∨ r = mrow 2 22 := by simpa [start, db, memberCached, member] using hr
    rcases this with rfl | rfl
    · exact ⟨21, by decide, by decide, fun n _ => by simp only [cachedApp]; omega⟩
    · exact ⟨22, by decide, by decide, fun n _ => by simp only [cachedApp]; omega⟩

theorem member_fits (b : Backend) : (collector .cascade).Fits (cachedApp b).engine memberCached where
  order := collector_order .cascade
  pks := by decide
  keys := fun t => unmanaged_but b (by simp [collector])
  cols := fun f hf => ⟨unmanaged_but b (collector_cols .cascade f hf).1, fun p hp => by rw [(collector_cols .cascade f hf).2.1] at hp; cases hp⟩
  links := by
    intro d hd tbl c k hm
    simp only [memberCached, memberKey, List.mem_singleton] at hd
    subst hd
    simp only [Dep.m2mTable, bookmarks, Option.some.injEq, Prod.mk.injEq] at hm
    rw [← hm.2.1]
    exact unmanaged_but b (by decide)
  nulls := by decide

theorem member_sorted : (collector .cascade).Sorted memberCached := by
  intro d hd tbl c k hm l pre post ht ho
  simp only [memberCached, memberKey, List.mem_singleton] at hd
  subst hd
  simp only [Dep.m2mTable, bookmarks, Option.some.injEq, Prod.mk.injEq] at hm
  obtain ⟨rfl, _, _⟩ := hm
  simp only [collector, if_pos ht] at ho
  cases pre with
  | nil => simp only [List.nil_append, List.cons.injEq] at ho; exact absurd ho.1 (by decide)
  | cons x pre =>
    simp only [List.cons_append, List.cons.injEq] at ho
    rw [← ho.1]; exact List.mem_cons_self ..

/-- The hypotheses of `C94_load_partial` and `C94_renewed_partial` are met on every backend, with a ManyToManyField: member 1 is loaded, section 1 is
deleted, and with it its forums, their post, and the bookmark of the member, whose key is another one now; loaded again, the member has no
title. -/
example (b : Backend) : CachedSetting (cachedApp b) cachedDecls memberCached ∧ CachedIn memberCached memberOrm ∧
    start.Initial (cachedApp b).engine memberCached ∧ (collector .cascade).Fits (cachedApp b).engine memberCached ∧
    (collector .cascade).Sorted memberCached ∧ (collector .cascade).GuardsLinks memberCached ∧ (collector .cascade).SparesCached memberCached ∧
    (loadCached memberCached db (mrow 1 21) start.cache).1 = .text "x" ∧
    ∃ st, DeleteRun (cachedApp b) memberCached memberOrm (collector .cascade) start st ∧ st.cache "CachedField_21" = some (.text "x") ∧
      (st.db.rows "forum").map (fun r => r "id") = [.int 3] ∧ (st.db.rows "member").map (fun r => r "key") = [.int 100, .int 22] ∧
      ∃ r ∈ st.db.rows "member", r "id" = .int 1 ∧ (loadCached memberCached st.db r st.cache).1 = .null := by
  refine ⟨memberCached_setting b, memberCached_in, member_initial b, member_fits b, member_sorted, by decide, by decide, by decide +kernel, ?_⟩
  have h : ∃ db', (cachedApp b).engine.deleteObjects (collector .cascade) 20 "section" [.int 1] db = .ok db' ∧
      (db'.rows "forum").map (fun r => r "id") = [.int 3] ∧ (db'.rows "member").map (fun r => r "key") = [.int 100, .int 22] ∧
      ∃ r ∈ db'.rows "member", r "id" = .int 1 ∧ (loadCached memberCached db' r (loadCached memberCached db (mrow 1 21) start.cache).2).1 = .null := by
    apply deleted_of
    cases b <;> decide +kernel
  obtain ⟨db', h1, h2, h3, h4⟩ := h
  refine ⟨⟨db', [], _⟩, .delete (st1 := ⟨db, [], _⟩) (.step .refl (.load (st := start) (r := mrow 1 21)
    (by simp [start, db, memberCached, member]))) h1, ?_, h2, h3, h4⟩
  change (loadCached memberCached db (mrow 1 21) fun _ => none).2 "CachedField_21" = some (.text "x")
  decide +kernel

end Keys

/-- **C94 is violated** for a `@cached` function that follows a ForeignKey declared with SET_NULL: Django first clears the column with an UPDATE,
for which there is no trigger (a CacheKeyField has none on its own model), and then deletes the related object, when nothing refers to it any
more. The instance keeps its cache key, and the value of the deleted object stays in the cache. -/
theorem C94_violated (b : Backend) : ∃ (A : App) (D : List Denorm) (cb : Callback) (om : OrmModel) (P : Collector) (st0 st : CacheState),
    A.engine.backend = b ∧ CachedSetting A D cb ∧ CachedIn cb om ∧ st0.Initial A.engine cb ∧ P.Fits A.engine cb ∧ P.Sorted cb ∧
    P.Guards cb ∧ DeleteRun A cb om P st0 st ∧ ∃ r ∈ st.db.rows cb.model.table, (loadCached cb st.db r st.cache).1 ≠ cb.value st.db r := by
  have h : ∃ db', (Keys.cachedApp b).engine.deleteObjects (Keys.collector .setNull) 20 "section" [.int 1] Keys.db = .ok db' ∧
      ∃ r ∈ db'.rows "forum", (loadCached Keys.forumCached db' r (loadCached Keys.forumCached Keys.db (Keys.frow 1 1 11) Keys.start.cache).2).1 ≠
        Keys.forumCached.value db' r := by
    apply deleted_of
    cases b <;> decide +kernel
  obtain ⟨db', h1, h2⟩ := h
  exact ⟨Keys.cachedApp b, Keys.cachedDecls, Keys.forumCached, Keys.cachedOrm, Keys.collector .setNull, Keys.start, ⟨db', [], _⟩, rfl,
    Keys.forumCached_setting b, Keys.forumCached_in, Keys.start_initial b, Keys.fits b _, Keys.sorted _,
    by decide, .delete (st1 := ⟨Keys.db, [], _⟩) (.step .refl (.load (st := Keys.start) (r := Keys.frow 1 1 11)
      (by simp [Keys.start, Keys.db, Keys.forumCached, Keys.forum]))) h1, h2⟩

end Denorm
