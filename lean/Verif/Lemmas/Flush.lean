import Verif.Lemmas.Save
import Verif.Lemmas.Declared
/-!
# flush keeps "every out-of-date instance is marked"
-/
namespace Denorm

/-- What saving the instance with key `k` of `om` does to a row of table `t`; `x` is what save() wrote. -/
structure RowRel (E : Engine) (om : OrmModel) (k : Val) (x : Row) (t : TableName) (a b : Row) : Prop where
  plain : ∀ c, ¬ Reached E om t c → (t = om.model.table → c ∉ om.denormCols) → b c = a c
  other : (t = om.model.table → a om.model.pk ≠ k) → ∀ c, ¬ Reached E om t c → b c = a c
  saved : t = om.model.table → a om.model.pk = k → ∀ c, ¬ Reached E om t c → b c = x c

theorem Pw.set_key {m : Model} {k : Val} {x : Row} : ∀ {l : List Row} {i : Nat} {r : Row}, (l.map fun r => r m.pk).Nodup →
    l[i]? = some r → r m.pk = k → Pw (fun a b => (a m.pk ≠ k → b = a) ∧ (a m.pk = k → b = x ∧ a = r)) l (l.set i x)
  | [], _, _, _, hi, _ => by simp at hi
  | a :: l, 0, r, hu, hi, hk => by
    simp only [List.getElem?_cons_zero, Option.some.injEq] at hi
    subst hi
    simp only [List.map_cons, List.nodup_cons] at hu
    refine .cons ⟨fun h => absurd hk h, fun _ => ⟨rfl, rfl⟩⟩ ?_
    refine (Pw.refl (R := fun a b => b = a) (fun _ => rfl) l).imp fun b hb c _ he => ?_
    subst he
    refine ⟨fun _ => rfl, fun h => absurd ?_ hu.1⟩
    rw [hk, ← h]
    exact List.mem_map.2 ⟨c, hb, rfl⟩
  | a :: l, i + 1, r, hu, hi, hk => by
    simp only [List.getElem?_cons_succ] at hi
    have hu' := hu
    simp only [List.map_cons, List.nodup_cons] at hu
    refine .cons ⟨fun _ => rfl, fun h => absurd ?_ hu.1⟩ (Pw.set_key hu.2 hi hk)
    rw [h, ← hk]
    exact List.mem_map.2 ⟨r, List.mem_of_getElem? hi, rfl⟩

/-- Saving, row by row. -/
theorem saveUpdate_rows {E : Engine} {om : OrmModel} {fuel : Nat} {db db' : Db} {mem r : Row}
    (hu : ((db.rows om.model.table).map fun r => r om.model.pk).Nodup) (hr : r ∈ db.rows om.model.table)
    (hk : r om.model.pk = mem om.model.pk) (hn : r om.model.pk ≠ .null)
    (hsame : ∀ c, c ∉ om.denormCols → savedRow om mem r c = r c)
    (he : E.exec fuel (saveUpdate om mem) db = .ok db') (t : TableName) :
    Pw (RowRel E om (r om.model.pk) (savedRow om mem r) t) (db.rows t) (db'.rows t) := by
  obtain ⟨i, hi⟩ := List.getElem?_of_mem hr
  obtain ⟨db1, h1, h2, h3⟩ := saveUpdate_effect hu hi hk hn hsame he
  by_cases ht : t = om.model.table
  · subst ht
    have hp := Pw.set_key (x := savedRow om mem r) hu hi rfl
    rw [← h1] at hp
    refine hp.trans ?_ (h3 _)
    intro a b c ⟨hab1, hab2⟩ hbc
    refine ⟨fun col hcol hden => ?_, fun hne col hcol => ?_, fun _ hak col hcol => ?_⟩
    · rw [hbc col hcol]
      by_cases hak : a om.model.pk = r om.model.pk
      · obtain ⟨h4, h5⟩ := hab2 hak
        rw [h4, h5, hsame col (hden rfl)]
      · rw [hab1 hak]
    · rw [hbc col hcol, hab1 (hne rfl)]
    · rw [hbc col hcol, (hab2 hak).1]
  · rw [← h2 t ht]
    refine (h3 t).imp fun a _ b _ hab => ⟨fun c hc _ => hab c hc, fun _ c hc => hab c hc, fun h => absurd h ht⟩

/-- The related rows depend only on the primary key and the ForeignKey followed. -/
theorem relatedRows_congr {d : Dep} {db : Db} {r r' : Row} (hnb : ∀ g, d.rel ≠ .backwardM2M (.generic g))
    (hpk : r d.this.pk = r' d.this.pk) (hown : ∀ c ∈ d.ownKeys, r c = r' c) : relatedRows d db r = relatedRows d db r' := by
  rcases d with ⟨this, other, rel, skip⟩
  rcases rel with f | f | (m | g) | (m | g)
  · have := hown f.column (by simp [Dep.ownKeys])
    simp [relatedRows, this]
  · simp only at hpk; simp [relatedRows, hpk]
  · simp only at hpk; simp [relatedRows, hpk]
  · simp only at hpk; simp [relatedRows, hpk]
  · simp only at hpk; simp [relatedRows, hpk]
  · exact absurd rfl (hnb g)

/-- Two databases whose rows correspond show the same related rows. -/
theorem seen_related {R : TableName → Row → Row → Prop} {d : DepRead} {db db' : Db} {r r' : Row}
    (hnb : ∀ g, d.dep.rel ≠ .backwardM2M (.generic g))
    (hpk : r d.dep.this.pk = r' d.dep.this.pk) (hown : ∀ c ∈ d.dep.ownKeys, r c = r' c)
    (hrows : ∀ t, Pw (R t) (db.rows t) (db'.rows t))
    (hlooks : ∀ p ∈ d.dep.looks, ∀ a b, R p.1 a b → b p.2 = a p.2)
    (hreads : ∀ a b, R d.dep.otherTable a b → a ∈ relatedRows d.dep db r → ∀ c ∈ d.reads, b c = a c) :
    seen d.reads (relatedRows d.dep db r) = seen d.reads (relatedRows d.dep db' r') := by
  rcases d with ⟨⟨this, other, rel, skip⟩, reads⟩
  simp only at hpk hreads hlooks hnb hown ⊢
  rcases rel with f | f | (m | g) | (m | g)
  · have hf := hown f.column (by simp [Dep.ownKeys])
    simp only [relatedRows] at hreads ⊢
    refine (hrows other.table).seen_filter ?_ ?_
    · intro a b hab
      rw [hlooks (other.table, other.pk) (by simp [Dep.looks]) a b hab, hf]
    · intro a b hab ha hp c hc
      exact (hreads a b hab (List.mem_filter.2 ⟨ha, hp⟩) c hc).symm
  · simp only [relatedRows] at hreads ⊢
    refine (hrows other.table).seen_filter ?_ ?_
    · intro a b hab
      rw [hlooks (other.table, f.column) (by simp [Dep.looks]) a b hab, hpk]
    · intro a b hab ha hp c hc
      exact (hreads a b hab (List.mem_filter.2 ⟨ha, hp⟩) c hc).symm
  · simp only [relatedRows, seen_flatMap] at hreads ⊢
    refine (hrows m.through).flatMap_filter ?_ ?_
    · intro a b hab
      rw [hlooks (m.through, m.colName) (by simp [Dep.looks]) a b hab, hpk]
    · intro a b hab ha hp
      refine (hrows other.table).seen_filter ?_ ?_
      · intro a' b' hab'
        rw [hlooks (other.table, other.pk) (by simp [Dep.looks]) a' b' hab',
          hlooks (m.through, m.revName) (by simp [Dep.looks]) a b hab]
      · intro a' b' hab' ha' hp' c hc
        exact (hreads a' b' hab' (List.mem_flatMap.2 ⟨a, List.mem_filter.2 ⟨ha, hp⟩, List.mem_filter.2 ⟨ha', hp'⟩⟩) c hc).symm
  · simp only [relatedRows] at hreads ⊢
    refine (hrows g.remoteTable).seen_filter ?_ ?_
    · intro a b hab
      rw [hlooks (g.remoteTable, g.ctFieldName ++ "_id") (by simp [Dep.looks]) a b hab,
        hlooks (g.remoteTable, g.objectIdField) (by simp [Dep.looks]) a b hab, hpk]
    · intro a b hab ha hp c hc
      exact (hreads a b hab (List.mem_filter.2 ⟨ha, hp⟩) c hc).symm
  · simp only [relatedRows, seen_flatMap] at hreads ⊢
    refine (hrows m.through).flatMap_filter ?_ ?_
    · intro a b hab
      rw [hlooks (m.through, m.revName) (by simp [Dep.looks]) a b hab, hpk]
    · intro a b hab ha hp
      refine (hrows other.table).seen_filter ?_ ?_
      · intro a' b' hab'
        rw [hlooks (other.table, other.pk) (by simp [Dep.looks]) a' b' hab',
          hlooks (m.through, m.colName) (by simp [Dep.looks]) a b hab]
      · intro a' b' hab' ha' hp' c hc
        exact (hreads a' b' hab' (List.mem_flatMap.2 ⟨a, List.mem_filter.2 ⟨ha, hp⟩, List.mem_filter.2 ⟨ha', hp'⟩⟩) c hc).symm
  · exact absurd rfl (hnb g)

theorem notBackGeneric {d : DepRead} (h : d.Watched) : ∀ g, d.dep.rel ≠ .backwardM2M (.generic g) := by
  intro g hg
  simp [DepRead.Watched, hg] at h

/-- Membership in the related rows determines membership in the table, and relates by key columns only: NoSelfRelation carries over. -/
theorem related_back {R : TableName → Row → Row → Prop} {d : Dep} {db db' : Db} {r r' : Row}
    (hnb : ∀ g, d.rel ≠ .backwardM2M (.generic g))
    (hpk : r d.this.pk = r' d.this.pk) (hown : ∀ c ∈ d.ownKeys, r c = r' c)
    (hrows : ∀ t, Pw (R t) (db.rows t) (db'.rows t))
    (hlooks : ∀ p ∈ d.looks, ∀ a b, R p.1 a b → b p.2 = a p.2) :
    ∀ b ∈ relatedRows d db' r', ∃ a ∈ relatedRows d db r, R d.otherTable a b := by
  rcases d with ⟨this, other, rel, skip⟩
  simp only at hpk hlooks hnb hown ⊢
  intro b hb
  rcases rel with f | f | (m | g) | (m | g)
  · have hf := hown f.column (by simp [Dep.ownKeys])
    simp only [relatedRows, List.mem_filter] at hb ⊢
    obtain ⟨a, ha, hab⟩ := (hrows other.table).right hb.1
    refine ⟨a, ⟨ha, ?_⟩, hab⟩
    rw [← hlooks (other.table, other.pk) (by simp [Dep.looks]) a b hab, hf]; exact hb.2
  · simp only [relatedRows, List.mem_filter] at hb ⊢
    obtain ⟨a, ha, hab⟩ := (hrows other.table).right hb.1
    refine ⟨a, ⟨ha, ?_⟩, hab⟩
    rw [← hlooks (other.table, f.column) (by simp [Dep.looks]) a b hab, hpk]; exact hb.2
  · simp only [relatedRows, List.mem_filter, List.mem_flatMap] at hb ⊢
    obtain ⟨l, ⟨hl, hlp⟩, hb, hbp⟩ := hb
    obtain ⟨l0, hl0, hll⟩ := (hrows m.through).right hl
    obtain ⟨a, ha, hab⟩ := (hrows other.table).right hb
    refine ⟨a, ⟨l0, ⟨hl0, ?_⟩, ha, ?_⟩, hab⟩
    · rw [← hlooks (m.through, m.colName) (by simp [Dep.looks]) l0 l hll, hpk]; exact hlp
    · rw [← hlooks (m.through, m.revName) (by simp [Dep.looks]) l0 l hll,
        ← hlooks (other.table, other.pk) (by simp [Dep.looks]) a b hab]; exact hbp
  · simp only [relatedRows, List.mem_filter] at hb ⊢
    obtain ⟨a, ha, hab⟩ := (hrows g.remoteTable).right hb.1
    refine ⟨a, ⟨ha, ?_⟩, hab⟩
    rw [← hlooks (g.remoteTable, g.ctFieldName ++ "_id") (by simp [Dep.looks]) a b hab,
      ← hlooks (g.remoteTable, g.objectIdField) (by simp [Dep.looks]) a b hab, hpk]; exact hb.2
  · simp only [relatedRows, List.mem_filter, List.mem_flatMap] at hb ⊢
    obtain ⟨l, ⟨hl, hlp⟩, hb, hbp⟩ := hb
    obtain ⟨l0, hl0, hll⟩ := (hrows m.through).right hl
    obtain ⟨a, ha, hab⟩ := (hrows other.table).right hb
    refine ⟨a, ⟨l0, ⟨hl0, ?_⟩, ha, ?_⟩, hab⟩
    · rw [← hlooks (m.through, m.revName) (by simp [Dep.looks]) l0 l hll, hpk]; exact hlp
    · rw [← hlooks (m.through, m.colName) (by simp [Dep.looks]) l0 l hll,
        ← hlooks (other.table, other.pk) (by simp [Dep.looks]) a b hab]; exact hbp
  · exact absurd rfl (hnb g)

/-! ## One save -/

section
variable {A : App} {D : List Denorm} {om om' : OrmModel} {cb : Callback} {db db' : Db}

theorem mem_denormCols {c : Col} (h : c ∈ om.denormCols) : c ∈ om.cols := by
  simp only [OrmModel.denormCols, OrmModel.cols, List.mem_map, List.mem_filter] at h ⊢
  obtain ⟨f, ⟨hf, _⟩, hc⟩ := h
  exact ⟨f, hf, hc⟩

/-- What flushOne does with an existing instance. -/
structure Saved (A : App) (om : OrmModel) (r mem : Row) (db db' : Db) : Prop where
  exec : A.engine.exec A.fuel (saveUpdate om mem) db = .ok db'
  inTable : r ∈ db.rows om.model.table
  key : mem om.model.pk = r om.model.pk
  plain : ∀ c, c ∉ om.denormCols → mem c = r c
  rows : ∀ t, Pw (RowRel A.engine om (r om.model.pk) (savedRow om mem r) t) (db.rows t) (db'.rows t)

/-- The loaded row is the one that is found again by its key. -/
theorem find_again {m : Model} {rows : List Row} {k : Val} {r : Row} (h : rows.find? (isRowOf m k) = some r) :
    rows.find? (isRowOf m (r m.pk)) = some r ∧ r m.pk = k := by
  have hk : r m.pk = k := (Val.sqlEq_iff.1 (List.find?_some (p := isRowOf m k) h)).1
  exact ⟨by rw [hk]; exact h, hk⟩

/-- The UPDATE of save(), where the loaded row is still the stored one. -/
theorem saved_of_exec (hu : KeysUnique A db) (hom : om ∈ A.models) {r mem : Row} (hmem : r ∈ db.rows om.model.table)
    (hkey : mem om.model.pk = r om.model.pk) (hplain : ∀ c, c ∉ om.denormCols → mem c = r c)
    (he : A.engine.exec A.fuel (saveUpdate om mem) db = .ok db') : Saved A om r mem db db' := by
  have hsame : ∀ c, c ∉ om.denormCols → savedRow om mem r c = r c := by
    intro c hc
    simp only [savedRow]
    split
    · exact hplain c hc
    · rfl
  exact ⟨he, hmem, hkey, hplain, saveUpdate_rows (hu om hom).1 hmem hkey.symm ((hu om hom).2 r hmem) hsame he⟩

theorem saved_of_save (hu : KeysUnique A db) (hom : om ∈ A.models) (hpk : om.model.pk ∉ om.cols) {k : Val} {r : Row}
    (hr : (db.rows om.model.table).find? (isRowOf om.model k) = some r) {p : Db × Row} (h : A.save om r db = .ok p) :
    ∃ mem, preSaveAll A om.model db false om.saved r = .ok mem ∧ Saved A om r mem db p.1 := by
  obtain ⟨hr2, hk⟩ := find_again hr
  have hmem : r ∈ db.rows om.model.table := List.mem_of_find?_eq_some hr
  simp only [App.save] at h
  cases hp : preSaveAll A om.model db false om.saved r with
  | error e => rw [hp] at h; simp at h
  | ok mem =>
    rw [hp] at h
    have hany : (db.rows om.model.table).any (isRowOf om.model (r om.model.pk)) = true :=
      List.any_eq_true.2 ⟨r, hmem, List.find?_some (p := isRowOf om.model (r om.model.pk)) hr2⟩
    simp only [hany, if_true, App.exec] at h
    cases he : A.engine.exec A.fuel (saveUpdate om mem) db with
    | error e => rw [he] at h; simp at h
    | ok db1 =>
      rw [he] at h
      simp only [Except.ok.injEq] at h
      subst h
      have hnpk : ∀ f ∈ om.saved, f.col ≠ om.model.pk := fun f hf e => hpk (List.mem_map.2 ⟨f, hf, e⟩)
      have hkey : mem om.model.pk = r om.model.pk := preSaveAll_other hp _ hnpk
      have hplain : ∀ c, c ∉ om.denormCols → mem c = r c := by
        intro c hc
        refine preSaveAll_plain hr2 hp rfl hnpk c ?_ rfl
        intro f hf hcomp e
        exact hc (List.mem_map.2 ⟨f, List.mem_filter.2 ⟨hf, hcomp⟩, e⟩)
      exact ⟨mem, rfl, saved_of_exec hu hom hmem hkey hplain he⟩

/-- Primary keys do not change. -/
theorem saved_pk (hS : KeysSafe A) (hom' : om' ∈ A.models) {om'' : OrmModel} (hom'' : om'' ∈ A.models) {k : Val} {x a b : Row}
    (h : RowRel A.engine om' k x om''.model.table a b) : b om''.model.pk = a om''.model.pk :=
  h.plain _ (hS.free om'' hom'' om' hom')
    (fun ht hc => hS.kept om'' hom'' om' hom' ht (mem_denormCols hc))

theorem Flushable.savable (hF : Flushable A D om cb db) : Savable A om cb db :=
  ⟨hF.declared.this, fun d hd => notBackGeneric (hF.declared.watched d hd), hF.found, hF.model, hF.cols, hF.order, hF.own, hF.deps, hF.pks, hF.safe⟩

theorem mem_models (hF : Flushable A D om cb db) : om ∈ A.models := List.mem_of_find?_eq_some hF.found

theorem Savable.mem_models (hF : Savable A om cb db) : om ∈ A.models := List.mem_of_find?_eq_some hF.found

theorem keysUnique_saved (hS : KeysSafe A) (hom' : om' ∈ A.models) (hu : KeysUnique A db) {r mem : Row}
    (h : Saved A om' r mem db db') : KeysUnique A db' := by
  intro om'' hom''
  have hp := h.rows om''.model.table
  constructor
  · rw [← hp.map_eq (f := fun r => r om''.model.pk) fun a b hab => (saved_pk hS hom' hom'' hab).symm]
    exact (hu om'' hom'').1
  · intro b hb
    obtain ⟨a, ha, hab⟩ := hp.right hb
    rw [saved_pk hS hom' hom'' hab]
    exact (hu om'' hom'').2 a ha

theorem untouched_rel (hom' : om' ∈ A.models) {t : TableName} {c : Col} (hc : ¬ Touched A t c) {k : Val} {x a b : Row}
    (h : RowRel A.engine om' k x t a b) : b c = a c :=
  h.plain c (fun hr => hc ⟨om', hom', .inr hr⟩) fun ht hd => hc ⟨om', hom', .inl ⟨ht, hd⟩⟩

theorem Savable.saved (hF : Savable A om cb db) (hom' : om' ∈ A.models) {r mem : Row} (h : Saved A om' r mem db db') :
    Savable A om cb db' := by
  refine { hF with deps := fun d hd => ⟨(hF.deps d hd).triggers, ?_⟩ }
  rcases (hF.deps d hd).self with h1 | ⟨h1, h2, h3, h4⟩
  · exact .inl h1
  · refine .inr ⟨h1, ?_, h3, h4⟩
    intro r' hr' o' ho'
    obtain ⟨r0, hr0, hrr⟩ := (h.rows om.model.table).right hr'
    have hthis : d.dep.this = om.model := (hF.this d hd).trans hF.model.symm
    have hpk := saved_pk hF.safe hom' (hF.mem_models) hrr
    obtain ⟨a, ha, hab⟩ := related_back (R := RowRel A.engine om' (r om'.model.pk) (savedRow om' mem r)) (r := r0)
      (hF.oneWay d hd) (by rw [hthis, hpk]) (fun c hc => (untouched_rel hom' (h4 c hc) hrr).symm) h.rows
      (fun p hp a b hab => untouched_rel hom' (h3 p hp) hab) o' ho'
    rw [h1] at hab
    rw [saved_pk hF.safe hom' (hF.mem_models) hab, hpk]
    exact h2 r0 hr0 a ha

/-- What `pre_save` computes for the callback field is right for the attributes that are written. -/
theorem Savable.value_of_pre (hF : Savable A om cb db) {r mem : Row} (hplain : ∀ c, c ∉ om.denormCols → mem c = r c)
    (hpre : preSaveAll A om.model db false om.saved r = .ok mem) : mem cb.field = cb.value db mem := by
  have hom := hF.mem_models
  obtain ⟨pre, post, hsp, hord⟩ := hF.order
  have hnd : (pre.map SaveField.col ++ cb.field :: post.map SaveField.col).Nodup := by
    have := hF.cols
    rw [OrmModel.cols, hsp] at this
    simpa using this
  have hpost : ∀ f ∈ post, f.col ≠ cb.field := by
    intro f hf e
    have := (List.nodup_append.1 hnd).2.1
    exact (List.nodup_cons.1 this).1 (e ▸ List.mem_map.2 ⟨f, hf, rfl⟩)
  have hpkc : om.model.pk ∉ om.cols := hF.safe.kept om hom om hom rfl
  have hnpk : ∀ f ∈ om.saved, f.col ≠ om.model.pk := fun f hf e => hpkc (List.mem_map.2 ⟨f, hf, e⟩)
  have hkey : mem om.model.pk = r om.model.pk := preSaveAll_other hpre _ hnpk
  rw [hsp] at hpre
  obtain ⟨rc, hp1, hp2⟩ := preSaveAll_append hpre
  simp only [preSaveAll, SaveField.preSave] at hp2
  have hfield : mem cb.field = cb.value db rc := by
    rw [preSaveAll_other hp2 cb.field hpost]
    simp [Row.set]
  -- the attributes the callback looked at are the written ones
  have hrc : ∀ c, c ≠ cb.field → (∀ f ∈ post, f.kind.computed = true → f.col ≠ c) → mem c = rc c := by
    intro c hcf hcp
    by_cases hc : ∃ f ∈ post, f.col = c
    · obtain ⟨f, hf, rfl⟩ := hc
      have hnc : f.col ∉ om.denormCols := by
        intro hd
        obtain ⟨g, hg, hge⟩ := List.mem_map.1 hd
        obtain ⟨hg, hgc⟩ := List.mem_filter.1 hg
        rw [hsp] at hg
        rcases List.mem_append.1 hg with hg | hg
        · exact (List.nodup_append.1 hnd).2.2 g.col (List.mem_map.2 ⟨g, hg, rfl⟩) f.col
            (List.mem_cons_of_mem _ (List.mem_map.2 ⟨f, hf, rfl⟩)) hge
        · rcases List.mem_cons.1 hg with rfl | hg
          · exact hcf hge.symm
          · exact hcp g hg hgc hge
      have hfp : ∀ g ∈ pre, g.col ≠ f.col := by
        intro g hg e
        exact (List.nodup_append.1 hnd).2.2 g.col (List.mem_map.2 ⟨g, hg, rfl⟩) f.col
            (List.mem_cons_of_mem _ (List.mem_map.2 ⟨f, hf, rfl⟩)) e
      rw [hplain _ hnc, preSaveAll_other hp1 _ hfp]
    · rw [preSaveAll_other hp2 c fun f hf e => hc ⟨f, hf, e⟩]
      simp [Row.set, hcf]
  have hrcpk : rc om.model.pk = mem om.model.pk := by
    rw [preSaveAll_other hp1 _ fun f hf => hnpk f (by rw [hsp]; exact List.mem_append_left _ hf), hkey]
  have hmc : ∀ c ∈ cb.own ++ cb.deps.flatMap (fun d => d.dep.ownKeys), mem c = rc c :=
    fun c hc => hrc c (hord c hc).1 (hord c hc).2
  rw [hfield]
  simp only [Callback.value]
  have hownl : cb.own.map rc = cb.own.map mem := List.map_congr_left fun c hc => (hmc c (List.mem_append_left _ hc)).symm
  rw [hownl]
  congr 1
  refine List.map_congr_left fun d hd => ?_
  have hthis : d.dep.this = om.model := (hF.this d hd).trans hF.model.symm
  rw [relatedRows_congr (hF.oneWay d hd) (by rw [hthis]; exact hrcpk) fun c hc =>
    (hmc c (List.mem_append_right _ (List.mem_flatMap.2 ⟨d, hd, hc⟩))).symm]

/-- Saving an instance makes its callback field right. -/
theorem Savable.fresh (hF : Savable A om cb db) (hu : KeysUnique A db) {r mem : Row} (h : Saved A om r mem db db')
    (hval : mem cb.field = cb.value db mem) :
    ∀ b ∈ db'.rows cb.model.table, b cb.model.pk = r cb.model.pk → cb.Fresh db' b := by
  intro b hb hbk
  have hom := hF.mem_models
  rw [← hF.model] at hb hbk
  obtain ⟨a, ha, hab⟩ := (h.rows om.model.table).right hb
  have hak : a om.model.pk = r om.model.pk := by rw [← saved_pk hF.safe hom hom hab, hbk]
  have hx := hab.saved rfl hak
  have hsavedEq : ∀ c, savedRow om mem r c = mem c := by
    intro c
    simp only [savedRow]
    split
    · rfl
    · rename_i hc
      exact (h.plain c fun hd => hc (mem_denormCols hd)).symm
  have hfield : b cb.field = cb.value db mem := by
    rw [hx cb.field (by exact hF.own cb.field (by simp [Callback.ownCols])), hsavedEq, hval]
  have hbrc : ∀ c ∈ cb.own ++ cb.deps.flatMap (fun d => d.dep.ownKeys), b c = mem c := by
    intro c hc
    have hown : c ∈ cb.ownCols := by
      simp only [Callback.ownCols, List.cons_append, List.mem_cons]
      exact .inr hc
    rw [hx c (hF.own c hown), hsavedEq]
  have hrcpk : mem om.model.pk = b om.model.pk := by rw [h.key, hbk]
  unfold Callback.Fresh
  rw [hfield]
  simp only [Callback.value]
  have hownl : cb.own.map mem = cb.own.map b :=
    List.map_congr_left fun c hc => (hbrc c (List.mem_append_left _ hc)).symm
  rw [hownl]
  congr 1
  refine List.map_congr_left fun d hd => ?_
  have hthis : d.dep.this = om.model := (hF.this d hd).trans hF.model.symm
  have hnb := hF.oneWay d hd
  have hkeys : ∀ c ∈ d.dep.ownKeys, mem c = b c := fun c hc =>
    (hbrc c (List.mem_append_right _ (List.mem_flatMap.2 ⟨d, hd, hc⟩))).symm
  have hS := hF.deps d hd
  refine seen_related (R := RowRel A.engine om (r om.model.pk) (savedRow om mem r)) hnb (by rw [hthis]; exact hrcpk) hkeys h.rows ?_ ?_
  · intro p hp a' b' hab'
    refine hab'.plain p.2 (hS.triggers p (List.mem_append_left _ hp)) fun ht => ?_
    rcases hS.self with h1 | ⟨_, _, h3, _⟩
    · exact h1 p (List.mem_append_left _ hp) ht
    · exact fun hd' => h3 p hp ⟨om, hom, .inl ⟨ht, hd'⟩⟩
  · intro a' b' hab' ha' c hc
    have hmem : (d.dep.otherTable, c) ∈ d.sees := List.mem_append_right _ (List.mem_map.2 ⟨c, hc, rfl⟩)
    rcases hS.self with h1 | ⟨h1, h2, h3, h4⟩
    · exact hab'.plain c (hS.triggers _ hmem) fun ht => h1 _ hmem ht
    · refine hab'.other (fun _ => ?_) c (hS.triggers _ hmem)
      have heq : relatedRows d.dep db mem = relatedRows d.dep db r := by
        refine relatedRows_congr hnb (by rw [hthis, hrcpk, hbk]) fun c hc => ?_
        rw [hkeys c hc]
        have : ¬ Touched A om.model.table c := h4 c hc
        have h5 := untouched_rel hom this hab
        rw [h5]
        have h6 : a = r := by
          have hun := (hu om hom).1
          obtain ⟨i, hi⟩ := List.getElem?_of_mem ha
          obtain ⟨j, hj⟩ := List.getElem?_of_mem h.inTable
          obtain ⟨hil, hie⟩ := List.getElem?_eq_some_iff.1 hi
          obtain ⟨hjl, hje⟩ := List.getElem?_eq_some_iff.1 hj
          have := (List.getElem_inj (h₀ := by simpa using hil) (h₁ := by simpa using hjl) hun).1 (by simp [hie, hje, hak])
          subst this
          rw [← hie, ← hje]
        rw [h6]
      rw [heq] at ha'
      exact h2 r h.inTable a' ha'

theorem flushable_saved (hF : Flushable A D om cb db) (hom' : om' ∈ A.models) {r mem : Row} (h : Saved A om' r mem db db') :
    Flushable A D om cb db' := { hF with deps := (hF.savable.saved hom' h).deps }

theorem value_of_pre (hF : Flushable A D om cb db) {r mem : Row} (hplain : ∀ c, c ∉ om.denormCols → mem c = r c)
    (hpre : preSaveAll A om.model db false om.saved r = .ok mem) : mem cb.field = cb.value db mem :=
  hF.savable.value_of_pre hplain hpre

theorem fresh_saved (hF : Flushable A D om cb db) (hu : KeysUnique A db) {r mem : Row} (h : Saved A om r mem db db')
    (hval : mem cb.field = cb.value db mem) :
    ∀ b ∈ db'.rows cb.model.table, b cb.model.pk = r cb.model.pk → cb.Fresh db' b :=
  hF.savable.fresh hu h hval

end

end Denorm
