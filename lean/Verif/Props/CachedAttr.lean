import Verif.Lemmas.CachedAttr
/-!
# What Django does with the attribute of a `@cached` field (C89)

Full statement of C89: a `@cached` attribute can be refreshed, deferred, validated and dumped like any other field: after `refresh_from_db()` it holds what the function returns for the stored row; if it was
not loaded (`only()`, `defer()`) it is loaded when it is read; `full_clean()` accepts an instance that was loaded; what `dumpdata` writes `loaddata` can read.
-/
namespace Denorm

section
variable {A : App} {D : List Denorm} {cb : Callback} {om : OrmModel} {st st0 : CacheState} {cols : List Col} {db : Db}

/-- C89, `refresh_from_db()`: after any history of statements, saves, loads, constructions, evictions, rollbacks (as in C17) and refreshes, `refresh_from_db()` of an instance, whatever it holds in memory,
raises only if its row is gone; it gives the `@cached` attribute what the function returns for the row, and the other attributes what the row holds. Instances that are loaded afterwards are right, too.

Missing: functions that read a column declared after the attribute (`C89_violated_order`), functions that return numbers (`C89_violated_number`); deferred attributes (`C89_violated_deferred`),
`full_clean()` (`C89_violated_clean`) and fixtures (`C89_violated_dump`). -/
theorem C89_refresh_partial (hA : CachedSetting A D cb) (hC : CachedIn cb om) (hT : cb.Texts) (hL : CachedLast cb cols) (h0 : st0.Initial A.engine cb)
    (h : RefreshRun A cb om cols st0 st) (mem : Row) (attr : Val) :
    (refreshCached cb cols st.db mem attr st.cache = none → ∀ r ∈ st.db.rows cb.model.table, r cb.model.pk ≠ mem cb.model.pk) ∧
    (∀ mem' attr' cache', refreshCached cb cols st.db mem attr st.cache = some (mem', attr', cache') →
      ∃ r ∈ st.db.rows cb.model.table, r cb.model.pk = mem cb.model.pk ∧ attr' = cb.value st.db r ∧ ∀ c ∈ cols, c ≠ cb.field → mem' c = r c) ∧
    ∀ r ∈ st.db.rows cb.model.table, (loadCached cb st.db r st.cache).1 = cb.value st.db r := by
  have hI := refreshInv_run hA hC hT hL h0 h
  refine ⟨fun hn r hr e => ?_, fun mem' attr' cache' hr => (refresh_right hA hC hT hL hI hr).1, fun r hr => load_right hI.inv hr⟩
  unfold refreshCached at hn
  cases hf : (st.db.rows cb.model.table).find? (fun r => Val.sqlEq (r cb.model.pk) (mem cb.model.pk)) with
  | some r' => rw [hf] at hn; cases hn
  | none =>
    have := List.find?_eq_none.1 hf r hr
    have hnn := hI.inv.notNull _ (List.mem_cons_self ..) (cb.model.table, cb.model.pk) (by simp [Callback.pks]) r hr
    exact this (Val.sqlEq_iff.2 ⟨e, hnn⟩)

/-- C89, violated for a function that reads a column declared after the attribute, in every project: if the instance holds old values of such columns, then
`refresh_from_db()`, which assigns attributes in the order of the declarations, evaluates the function with the old values (`m`): the attribute is wrong, if that makes a difference, although all other attributes are those of the row. And
the wrong value is cached under the right one: whoever refreshes an instance with the same value gets it. -/
theorem C89_violated_order {pre post : List Col} (h1 : cb.field ∉ pre) (h2 : cb.field ∉ post) {r mem m : Row} {attr : Val} (hm : ∀ c, m c = if c ∈ pre then r c else mem c)
    (hf : (db.rows cb.model.table).find? (fun r => Val.sqlEq (r cb.model.pk) (mem cb.model.pk)) = some r) (hk : ∃ i : Int, r cb.field = .int i)
    (hT : cb.Texts) (hm0 : (cb.value db m).truthy = true) {cache : Cache} (hc : ∀ n, cache n = none) :
    ∃ mem' cache', refreshCached cb (pre ++ cb.field :: post) db mem attr cache = some (mem', cb.value db m, cache') ∧
      (∀ c ∈ pre ++ post, mem' c = r c) ∧
      ∀ {r2 mem2 : Row} (attr2 : Val), r2 cb.field ≠ r cb.field → (∃ i : Int, r2 cb.field = .int i) → cb.value db r2 = cb.value db r →
        (db.rows cb.model.table).find? (fun r => Val.sqlEq (r cb.model.pk) (mem2 cb.model.pk)) = some r2 →
        ∃ mem3 cache3, refreshCached cb (pre ++ cb.field :: post) db mem2 attr2 cache' = some (mem3, cb.value db m, cache3) := by
  obtain ⟨i, hi⟩ := hk
  obtain ⟨s, hs, hn⟩ := hT db r
  have hl : loadCached cb db r cache = (cb.value db r, cache.set (cacheName (r cb.field)) (cb.value db r)) := setCached_none (hc _)
  obtain ⟨mem', e1, e2⟩ := refreshCached_eq (attr := attr) h1 h2 hm hf hl
  have hnone : (cache.set (cacheName (r cb.field)) (cb.value db r)) (cacheName (cb.value db r)) = none := by
    rw [hs, hi, Cache.set_other (cacheName_text hn)]
    exact hc _
  rw [setCached_none hnone] at e1
  refine ⟨mem', _, e1, fun c hc' => (e2 c).trans (if_pos hc'), fun {r2 mem2} attr2 hne2 hk2 hv2 hf2 => ?_⟩
  obtain ⟨j, hj⟩ := hk2
  have hnone2 : ((cache.set (cacheName (r cb.field)) (cb.value db r)).set (cacheName (cb.value db r)) (cb.value db m)) (cacheName (r2 cb.field)) = none := by
    rw [Cache.set_other (by rw [hs, hj]; exact (cacheName_text hn).symm), Cache.set_other]
    · exact hc _
    · intro e
      rw [hi, hj] at e
      exact hne2 (by rw [hi, hj, cacheName_inj e])
  have hl2 := setCached_none (cb := cb) (db := db) (obj := r2) hnone2
  obtain ⟨mem3, e3, _⟩ := refreshCached_eq (attr := attr2) (m := fun c => if c ∈ pre then r2 c else mem2 c) h1 h2 (fun _ => rfl) hf2 hl2
  have hg : ((((cache.set (cacheName (r cb.field)) (cb.value db r)).set (cacheName (cb.value db r)) (cb.value db m))).set (cacheName (r2 cb.field)) (cb.value db r2)) (cacheName (cb.value db r2)) =
      some (cb.value db m) := by
    rw [hv2, Cache.set_other (by rw [hs, hj]; exact cacheName_text hn), Cache.set_same]
  rw [setCached_hit hg hm0] at e3
  exact ⟨mem3, _, e3⟩

/-- C89, violated for functions that return numbers, in every project: an instance is constructed (`Model(..)`), for which the function returns something else than 0; then `refresh_from_db()` of an instance
for which the function returns 0 gives it the value of the constructed one, because 0 is the name under which constructed instances are cached. -/
theorem C89_violated_number {pre post : List Col} (h1 : cb.field ∉ pre) (h2 : cb.field ∉ post) {r mem obj : Row} {attr : Val}
    (hf : (db.rows cb.model.table).find? (fun r => Val.sqlEq (r cb.model.pk) (mem cb.model.pk)) = some r) {i : Int} (hk : r cb.field = .int i) (hi : i ≠ 0)
    (h0 : cb.value db r = .int 0) (hv : (cb.value db obj).truthy = true) {cache : Cache} (hc : ∀ n, cache n = none) :
    ∃ mem' cache', refreshCached cb (pre ++ cb.field :: post) db mem attr (constructCached cb db obj cache).2 = some (mem', cb.value db obj, cache') ∧ cb.value db obj ≠ cb.value db r := by
  have hcon : constructCached cb db obj cache = (cb.value db obj, cache.set (cacheName (.int 0)) (cb.value db obj)) := setCached_none (hc _)
  rw [hcon]
  have hl : loadCached cb db r (cache.set (cacheName (.int 0)) (cb.value db obj)) = (cb.value db r, (cache.set (cacheName (.int 0)) (cb.value db obj)).set (cacheName (r cb.field)) (cb.value db r)) := by
    refine setCached_none ?_
    rw [hk, Cache.set_other fun e => hi (cacheName_inj e)]
    exact hc _
  obtain ⟨mem', e1, _⟩ := refreshCached_eq (attr := attr) (m := fun c => if c ∈ pre then r c else mem c) h1 h2 (fun _ => rfl) hf hl
  have hg : ((cache.set (cacheName (.int 0)) (cb.value db obj)).set (cacheName (r cb.field)) (cb.value db r)) (cacheName (cb.value db r)) = some (cb.value db obj) := by
    rw [h0, hk, Cache.set_other fun e => hi (cacheName_inj e).symm, Cache.set_same]
  rw [setCached_hit hg hv] at e1
  refine ⟨mem', _, e1, fun e => ?_⟩
  rw [e, h0] at hv
  exact absurd hv (by decide)

/-- C89, violated for deferred attributes, in every project: an instance loaded with `only()` or `defer()` that leaves out the `@cached` field shows the descriptor object under this name, where every other
field is fetched from the row when it is read. -/
theorem C89_violated_deferred {loaded : List Col} (h : cb.field ∉ loaded) (r : Row) (cache : Cache) :
    readCached cb loaded db r cache = .descriptor ∧ ∀ c, readPlain loaded c r = .value (r c) := by
  refine ⟨by simp [readCached, pyGetattr, cacheWrapper, h], fun c => ?_⟩
  by_cases hc : c ∈ loaded <;> simp [readPlain, pyGetattr, deferredAttribute, hc]

/-- C89: an attribute that was loaded can be read. -/
theorem C89_loaded {loaded : List Col} (h : cb.field ∈ loaded) (r : Row) (cache : Cache) : readCached cb loaded db r cache = .value (loadCached cb db r cache).1 := by
  simp [readCached, pyGetattr, cacheWrapper, h]

/-- C89, violated by `full_clean()`, in every project: if the function returns a text that is not a number, every instance is refused, however it was loaded and although nothing is wrong with it. -/
theorem C89_violated_clean {int : String → Option Int} (hA : CachedSetting A D cb) (hC : CachedIn cb om) (h0 : st0.Initial A.engine cb) (h : CacheRun A cb om st0 st)
    {r : Row} (hr : r ∈ st.db.rows cb.model.table) {s : String} (hs : cb.value st.db r = .text s) (hint : int s = none) :
    cleanCached int cb st.db r (loadCached cb st.db r st.cache).1 (loadCached cb st.db r st.cache).2 = none := by
  rw [C17_load_partial hA hC h0 h hr, hs]
  simp [cleanCached, bigintToPython, hint]

/-- C89, violated by fixtures, in every project: if the function returns a text that is not a number, what `dumpdata` writes for a loaded instance is refused by `loaddata`. -/
theorem C89_violated_dump {int : String → Option Int} (hA : CachedSetting A D cb) (hC : CachedIn cb om) (h0 : st0.Initial A.engine cb) (h : CacheRun A cb om st0 st)
    {r : Row} (hr : r ∈ st.db.rows cb.model.table) {s : String} (hs : cb.value st.db r = .text s) (hint : int s = none) (db' : Db) (cache' : Cache) :
    loadFixtureCached int cb db' r (dumpCached (loadCached cb st.db r st.cache).1) cache' = none := by
  rw [C17_load_partial hA hC h0 h hr, hs]
  simp [loadFixtureCached, dumpCached, bigintToPython, hint]

/-- C89, violated by fixtures, in every project whose function returns numbers or nothing: `loaddata` accepts what was dumped (`v`), but takes it for a key. The first object is given what the function
returns for it (`a`), and that is also what its column holds in the place of a key. A second object for which the same was dumped is given the same attribute and the same key, whatever the function
returns for it. -/
theorem C89_violated_fixture {int : String → Option Int} {v : Val} (hv : ∀ s, v ≠ .text s) {cache : Cache} (hc : ∀ n, cache n = none) (db : Db) (o1 o2 : Row)
    (ht : (cb.value db o1).truthy = true) : ∃ cache', loadFixtureCached int cb db o1 (dumpCached v) cache = some (cb.value db o1, cb.value db o1, cache') ∧
      loadFixtureCached int cb db o2 (dumpCached v) cache' = some (cb.value db o1, cb.value db o1, cache') := by
  have hp : bigintToPython int v = some v := by
    cases v with
    | text s => exact absurd rfl (hv s)
    | null => rfl
    | int i => rfl
  have h1 := setCached_none (cb := cb) (db := db) (obj := o1) (hc (cacheName v))
  have h2 := setCached_hit (cb := cb) (db := db) (obj := o2) (Cache.set_same (c := cache) (n := cacheName v) (v := cb.value db o1)) ht
  exact ⟨cache.set (cacheName v) (cb.value db o1), by simp [loadFixtureCached, dumpCached, hp, h1], by simp [loadFixtureCached, dumpCached, hp, h2]⟩

end

/-! ## The hypotheses are met -/

namespace Wall
set_option maxRecDepth 100000

/-- Brackets make it a text that is no number. -/
theorem shown_texts (c : Col) : (shown c).Texts := by
  intro db r
  refine ⟨"[" ++ (r c).format ++ "]", rfl, fun i h => ?_⟩
  refine bracket_notin_int i ?_
  rw [← h, String.toList_append, String.toList_append]
  exact List.mem_append_left _ (List.mem_append_left _ (by decide))

/-- The columns with the attribute at the end, and with the attribute in the middle. -/
def colsLast : List Col := ["id", "text", "copy", "key"]
def colsMiddle : List Col := ["id", "key", "text", "copy"]

theorem shown_last : CachedLast (shown "text") colsLast :=
  ⟨["id", "text", "copy"], [], rfl, by decide, by decide, fun c hc => .inl (by
    rcases hc with hc | hc
    · have : c = "text" := by simpa [shown] using hc
      simp [this]
    · simp [shown, Callback.key, KeyField.fks] at hc)⟩

theorem shown_in : CachedIn (shown "text") before where
  model := rfl
  proper := ⟨by decide, by decide⟩
  keys := by decide
  order := ⟨[⟨"text", .plain⟩, ⟨"copy", .callback copy⟩], [], rfl, fun c hc => .inr (.inl (by
    rcases hc with hc | hc
    · have : c = "text" := by simpa [shown] using hc
      simp [this]
    · simp [shown, Callback.key, KeyField.fks] at hc))⟩

/-- An instance of note 1 that was loaded when its text was "old". -/
def oldNote : Row := nrow 1 "old" "old" 7

/-- The hypotheses of `C89_refresh_partial` are met, with a history in which the instance has been refreshed once before: the attribute shows the text of the row. -/
example (b : Backend) : ∃ st, RefreshRun (app b) (shown "text") before colsLast start st ∧
    ∃ mem' cache', refreshCached (shown "text") colsLast st.db oldNote (.text "[old]") st.cache = some (mem', .text "[a]", cache') ∧ mem' "text" = .text "a" := by
  have h : (match refreshCached (shown "text") colsLast db oldNote (.text "[old]") start.cache with
      | some (_, _, c1) => (match refreshCached (shown "text") colsLast db oldNote (.text "[old]") c1 with
        | some (mem', a, _) => decide (a = .text "[a]" ∧ mem' "text" = .text "a")
        | none => false)
      | none => false) = true := by decide +kernel
  cases h1 : refreshCached (shown "text") colsLast db oldNote (.text "[old]") start.cache with
  | none => rw [h1] at h; cases h
  | some x =>
    obtain ⟨m1, a1, c1⟩ := x
    rw [h1] at h
    cases h2 : refreshCached (shown "text") colsLast db oldNote (.text "[old]") c1 with
    | none => simp only [h2] at h; cases h
    | some y =>
      obtain ⟨m2, a2, c2⟩ := y
      simp only [h2, decide_eq_true_eq] at h
      exact ⟨{ start with cache := c1 }, .step .refl (.refresh h1), m2, c2, by rw [← h.1]; exact h2, h.2⟩

example (b : Backend) := C89_refresh_partial (A := app b) (setting b "text") shown_in (shown_texts "text") shown_last (start_initial b "text") .refl oldNote (.text "[old]")

/-- The hypotheses of `C89_violated_order` are met: with the attribute before the text, the refreshed instance shows the old text. -/
example : ∃ mem' cache', refreshCached (shown "text") colsMiddle db oldNote (.text "[old]") (fun _ => none) = some (mem', .text "[old]", cache') ∧ mem' "text" = .text "a" := by
  obtain ⟨mem', cache', h1, h2, _⟩ := C89_violated_order (cb := shown "text") (db := db) (pre := ["id"]) (post := ["text", "copy"]) (by decide) (by decide) (r := nrow 1 "a" "a" 11) (mem := oldNote)
    (attr := .text "[old]") (fun _ => rfl) rfl ⟨11, rfl⟩ (shown_texts "text") (by decide) (fun _ => rfl)
  exact ⟨mem', cache', h1, h2 "text" (by decide)⟩

/-- A `@cached` attribute that returns a number: how often the note was copied, say. -/
def counted : Callback := { model := note, field := "key", own := ["copy"], deps := [], fn := fun own _ => own.headD .null }

/-- The hypotheses of `C89_violated_number` are met: note 1 has the number 0, a note with the number 5 is constructed and never saved; after refresh_from_db() note 1 shows 5. -/
example : ∃ mem' cache', refreshCached counted colsLast ⟨fun t => if t = "note" then [(nrow 1 "a" "" 11).set "copy" (.int 0)] else [], [], 0⟩ oldNote (.int 0)
    (constructCached counted ⟨fun t => if t = "note" then [(nrow 1 "a" "" 11).set "copy" (.int 0)] else [], [], 0⟩ ((nrow 2 "b" "" 0).set "copy" (.int 5)) fun _ => none).2 = some (mem', .int 5, cache') := by
  obtain ⟨mem', cache', h, _⟩ := C89_violated_number (cb := counted) (db := ⟨fun t => if t = "note" then [(nrow 1 "a" "" 11).set "copy" (.int 0)] else [], [], 0⟩) (pre := ["id", "text", "copy"]) (post := [])
    (by decide) (by decide) (r := (nrow 1 "a" "" 11).set "copy" (.int 0)) (mem := oldNote) (obj := (nrow 2 "b" "" 0).set "copy" (.int 5)) (attr := .int 0) rfl (i := 11) rfl (by decide) rfl (by decide)
    (cache := fun _ => none) (fun _ => rfl)
  exact ⟨mem', cache', h⟩

/-- The hypotheses of `C89_violated_fixture` are met: both notes had the number 3 when they were dumped; for the second one the function returns 7 now, but it shows 5. -/
example (int : String → Option Int) : ∃ cache', loadFixtureCached int counted db ((nrow 1 "a" "" 0).set "copy" (.int 5)) (dumpCached (.int 3)) (fun _ => none) = some (.int 5, .int 5, cache') ∧
    loadFixtureCached int counted db ((nrow 2 "b" "" 0).set "copy" (.int 7)) (dumpCached (.int 3)) cache' = some (.int 5, .int 5, cache') ∧
    counted.value db ((nrow 2 "b" "" 0).set "copy" (.int 7)) = .int 7 := by
  obtain ⟨c, h1, h2⟩ := C89_violated_fixture (cb := counted) (int := int) (v := .int 3) (by simp) (cache := fun _ => none) (fun _ => rfl) db ((nrow 1 "a" "" 0).set "copy" (.int 5))
    ((nrow 2 "b" "" 0).set "copy" (.int 7)) (by decide)
  exact ⟨c, h1, h2, rfl⟩

/-- The hypotheses of `C89_violated_clean` and `C89_violated_dump` are met by note 1, whatever numbers Python reads as long as "[a]" is none. -/
example (b : Backend) (int : String → Option Int) (h : int "[a]" = none) :
    cleanCached int (shown "text") db (nrow 1 "a" "a" 11) (loadCached (shown "text") db (nrow 1 "a" "a" 11) start.cache).1 (loadCached (shown "text") db (nrow 1 "a" "a" 11) start.cache).2 = none ∧
    ∀ db' cache', loadFixtureCached int (shown "text") db' (nrow 1 "a" "a" 11) (dumpCached (loadCached (shown "text") db (nrow 1 "a" "a" 11) start.cache).1) cache' = none :=
  ⟨C89_violated_clean (A := app b) (st := start) (setting b "text") shown_in (start_initial b "text") .refl (by simp [start, db, shown, note]) (s := "[a]") rfl h,
    C89_violated_dump (A := app b) (st := start) (setting b "text") shown_in (start_initial b "text") .refl (by simp [start, db, shown, note]) (s := "[a]") rfl h⟩

example : readCached (shown "text") ["id", "text"] db (nrow 1 "a" "a" 11) (fun _ => none) = .descriptor := (C89_violated_deferred (by decide) _ _).1

end Wall

end Denorm
