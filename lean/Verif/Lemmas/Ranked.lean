import Verif.Spec.Ranked
import Verif.Lemmas.Works
/-!
# Projects with every kind of field: lemmas
-/
namespace Denorm

section
variable {A : App} {D : List Denorm} {cbs : List Callback} {S : List (TableName × Col)} {rank : Nat → Nat} {L : Nat} {db db' : Db}

variable (hP : RankedProject A.engine.backend A.models D cbs S rank L)
include hP

theorem RankedProject.denormalized {cb : Callback} (h : cb ∈ cbs) : Denormalized D cb.model.table cb.field :=
  ⟨cb.denorm, (hP.fields cb h).1, rfl, rfl⟩

theorem RankedProject.denormCols {om : OrmModel} (hom : om ∈ A.models) {c : Col} (h : c ∈ om.denormCols) : Denormalized D om.model.table c := by
  obtain ⟨f, hf, e⟩ := List.mem_map.1 h
  obtain ⟨hf, hk⟩ := List.mem_filter.1 hf
  exact e ▸ hP.computed om hom f hf hk

theorem RankedProject.reached (hE : Installed A.engine D) {om : OrmModel} {t : TableName} {c : Col} (h : Reached A.engine om t c) : Denormalized D t c := by
  obtain ⟨dn, hdn, e1, e2, _⟩ := managed_maintained hE hP.this h.managed
  exact ⟨dn, hdn, e1, e2⟩

theorem RankedProject.touched (hE : Installed A.engine D) {t : TableName} {c : Col} (h : Touched A t c) : Denormalized D t c := by
  obtain ⟨om, hom, ⟨rfl, hc⟩ | hr⟩ := h
  · exact hP.denormCols hom hc
  · exact hP.reached hE hr

theorem RankedProject.writes {dn : Denorm} (hdn : dn ∈ D) {p : TableName × Col} (h : p ∈ dn.writes) : Denormalized D p.1 p.2 := by
  rcases hP.kinds dn hdn with ⟨cb, _, rfl⟩ | ⟨a, rfl⟩ | ⟨m, f, ds, rfl, _⟩
  · simp [Callback.denorm, Denorm.writes] at h
  · simp only [Denorm.writes, List.mem_singleton] at h
    subst h
    exact ⟨_, hdn, rfl, rfl⟩
  · simp only [Denorm.writes, List.mem_map] at h
    obtain ⟨d, hd, rfl⟩ := h
    exact ⟨_, hdn, by rw [hP.this _ hdn d hd], rfl⟩

theorem RankedProject.dep {cb : Callback} (hcb : cb ∈ cbs) {d : DepRead} (hd : d ∈ cb.deps) : d.dep ∈ cb.denorm.deps := List.mem_map.2 ⟨d, hd, rfl⟩

theorem RankedProject.safe (hE : Installed A.engine D) : KeysSafe A where
  kept := fun om hom om' hom' e => by
    have := hP.tables om hom om' hom' e
    subst this
    exact (hP.proper om hom).pk
  free := fun om hom om' _ hr => hP.keys om hom (hP.reached hE hr)

theorem RankedProject.wellDeclared {cb : Callback} (hcb : cb ∈ cbs) : WellDeclared A.engine.backend D cb where
  declared := (hP.fields cb hcb).1
  agree := fun g hg => covered_of_agree hP.agree (List.mem_flatMap.2 ⟨_, (hP.fields cb hcb).1, hg⟩)
  table := hP.pkTable cb hcb
  own := hP.ownCols cb hcb
  this := fun d hd => hP.this _ (hP.fields cb hcb).1 _ (hP.dep hcb hd)
  watched := hP.watched cb hcb
  keys := fun p hp dn hdn hw => hP.pks cb hcb p hp (hP.writes hdn hw)
  links := fun d hd l hl dn hdn hw => by
    refine hP.looks _ (hP.fields cb hcb).1 _ (hP.dep hcb hd) (l.1, l.2.2) ?_ (hP.writes hdn hw)
    unfold Dep.m2mTable at hl
    unfold Dep.looks
    split at hl <;> simp_all
    all_goals (subst hl; simp)

/-- No trigger writes a `@denormalized` field. -/
theorem RankedProject.unreached (hE : Installed A.engine D) {cb : Callback} (hcb : cb ∈ cbs) {om : OrmModel} {t : TableName} {c : Col}
    (ht : cb.model.table = t) (hc : cb.field = c) (hr : Reached A.engine om t c) : False := by
  obtain ⟨dn, hdn, e1, e2, hk⟩ := managed_maintained hE hP.this hr.managed
  have := hP.once _ hdn _ (hP.fields cb hcb).1 (e1.trans ht.symm) (e2.trans hc.symm)
  subst this
  exact hk.elim

theorem RankedProject.elsewhere {cb : Callback} (hcb : cb ∈ cbs) {d : DepRead} (hd : d ∈ cb.deps) : d.dep.otherTable ≠ cb.model.table := by
  intro h
  obtain ⟨om, hom, hm, _⟩ := (hP.fields cb hcb).2
  have := hP.ranks _ (hP.fields cb hcb).1 om hom (by rw [hm, ← h]; exact List.mem_map.2 ⟨_, hP.dep hcb hd, rfl⟩)
  rw [hm] at this
  exact Nat.lt_irrefl _ this

theorem RankedProject.flushable (hE : Installed A.engine D) {cb : Callback} (hcb : cb ∈ cbs) (db : Db) : ∃ om, Flushable A D om cb db := by
  obtain ⟨hdn, om, hom, hmodel, pre, post, hs, hpost⟩ := hP.fields cb hcb
  refine ⟨om, hE, hP.wellDeclared hcb, noReentry_of_tables hE hP.this hP.acyclic hP.clear, ?_, hmodel, (hP.proper om hom).cols, ⟨pre, post, hs, ?_⟩, ?_, ?_,
    ?_, hP.safe hE⟩
  · cases hf : A.models.find? fun om => om.model.ct == cb.model.ct with
    | none =>
      have := List.find?_eq_none.1 hf om hom
      simp [hmodel] at this
    | some om' =>
      have h1 := List.find?_some hf
      have h2 := List.mem_of_find?_eq_some hf
      rw [hP.cts om' h2 om hom (by rw [hmodel]; simpa using h1)]
  · intro c hc
    rcases List.mem_append.1 hc with hc | hc
    · refine ⟨fun h => ?_, fun f hf hk h => hpost f hf hk (h ▸ hc)⟩
      subst h
      rcases hP.own cb hcb _ hc with h1 | ⟨_, _, _, _, h1⟩
      · exact h1 (hP.denormalized hcb)
      · exact h1 rfl
    · obtain ⟨d, hd, hc⟩ := List.mem_flatMap.1 hc
      have hc' := hP.ownKeys _ (hP.fields cb hcb).1 _ (hP.dep hcb hd) c hc
      refine ⟨fun h => hc' (h ▸ hP.denormalized hcb), fun f hf hk h => hc' ?_⟩
      have hd : c ∈ om.denormCols := List.mem_map.2 ⟨f, List.mem_filter.2 ⟨by rw [hs]; simp [hf], hk⟩, h⟩
      have := hP.denormCols hom hd
      rw [hmodel] at this
      exact this
  · intro c hc hr
    simp only [Callback.ownCols, List.cons_append, List.mem_cons] at hc
    have hd := hP.reached hE hr
    rw [hmodel] at hd
    rcases hc with rfl | hc
    · exact hP.unreached hE hcb (by rw [hmodel]) rfl hr
    · rcases List.mem_append.1 hc with hc | hc
      · rcases hP.own cb hcb c hc with h1 | ⟨cb', hcb', e1, e2, _⟩
        · exact h1 hd
        · exact hP.unreached hE hcb' (by rw [e1, hmodel]) e2 hr
      · obtain ⟨d, hd', hc⟩ := List.mem_flatMap.1 hc
        exact hP.ownKeys _ (hP.fields cb hcb).1 _ (hP.dep hcb hd') c hc hd
  · intro d hd
    refine ⟨fun p hp hr => ?_, .inl fun p hp e hc => ?_⟩
    · rcases List.mem_append.1 hp with hp | hp
      · exact hP.looks _ (hP.fields cb hcb).1 _ (hP.dep hcb hd) p hp (hP.reached hE hr)
      · obtain ⟨c, hc, rfl⟩ := List.mem_map.1 hp
        rcases hP.reads cb hcb d hd c hc with h1 | ⟨cb', hcb', e1, e2⟩
        · exact h1 (hP.reached hE hr)
        · exact hP.unreached hE hcb' e1 e2 hr
    · have hdn := hP.denormCols hom hc
      rcases List.mem_append.1 hp with hp | hp
      · rw [← e] at hdn
        exact hP.looks _ (hP.fields cb hcb).1 _ (hP.dep hcb hd) p hp hdn
      · obtain ⟨c, hc1, rfl⟩ := List.mem_map.1 hp
        exact hP.elsewhere hcb hd (by rw [← hmodel]; exact e)
  · intro om' hom' p hp e hc
    have hpk : p.2 = om'.model.pk := by
      simp only [Callback.pks, List.mem_cons, List.mem_map] at hp
      rcases hp with rfl | ⟨d, hd, rfl⟩
      · rw [hP.tables om' hom' om hom (by rw [hmodel]; exact e.symm), hmodel]
      · exact (hP.others _ (hP.fields cb hcb).1 _ (hP.dep hcb hd) om' hom' e.symm).symm
    exact (hP.proper om' hom').pk (hpk ▸ hc)

theorem RankedProject.project (hE : Installed A.engine D) : Project A D := by
  refine ⟨hE, hP.agree, hP.safe hE, hP.cts, hP.tables, ?_, hP.this, ?_, hP.others, hP.generic, hP.through, ?_, ?_⟩
  · intro dn hdn
    rcases hP.kinds dn hdn with ⟨cb, hcb, rfl⟩ | ⟨a, rfl⟩ | ⟨m, f, ds, rfl, _, h⟩
    · obtain ⟨om, hom, e, _⟩ := (hP.fields cb hcb).2
      exact ⟨om, hom, e⟩
    · exact (hP.counts a hdn).2.1
    · exact h
  · intro dn hdn
    rcases hP.kinds dn hdn with ⟨cb, hcb, rfl⟩ | ⟨a, rfl⟩ | ⟨m, f, ds, rfl, h, _⟩
    · exact hP.pkTable cb hcb
    · exact (hP.counts a hdn).2.2.1
    · exact h
  · intro dn hdn d hd
    refine ⟨fun p hp ht => hP.looks dn hdn d hd p hp (hP.touched hE ht), fun c hc ht => ?_⟩
    have := hP.touched hE ht
    rw [hP.this dn hdn d hd] at this
    exact hP.ownKeys dn hdn d hd c hc this
  · exact fun a ha ht => hP.fks a ha (hP.touched hE ht)

theorem RankedProject.layered (db : Db) : Layered A D (fun ct _ => rank ct) L db where
  up := fun dn hdn om hom o _ x _ hf => by
    refine hP.ranks dn hdn om hom ?_
    rcases hf with ⟨d, hd, e, _⟩ | ⟨a, rfl, e, _⟩
    · rw [e]
      cases dn with
      | callback => exact List.mem_map.2 ⟨d, hd, rfl⟩
      | cacheKey => exact List.mem_map.2 ⟨d, hd, rfl⟩
      | aggregate => cases hd
    · rw [e]
      exact List.mem_singleton.2 rfl
  bound := fun om hom _ _ => hP.bound om hom

theorem RankedProject.finishes (hE : Installed A.engine D) (s : Stmt) (db : Db) : A.engine.Finishes s db :=
  C51_tables_partial hE hP.this (fun _ => hP.clear) hP.acyclic s db

theorem RankedProject.onlyDenorms : OnlyDenorms A D where
  computed := hP.computed
  saved := fun om hom f hf e => (hP.proper om hom).pk (List.mem_map.2 ⟨f, hf, e⟩)
  keys := hP.keys

/-- flush() keeps CountFields right. -/
theorem RankedProject.count_flushOne (hE : Installed A.engine D) {a : AggDenorm} (ha : .aggregate a ∈ D) (hc : a.agg = .count) (hu : KeysUnique A db)
    (hok : AggOk a db) {m : Mark} (h : A.flushOne m db = .ok db') : AggOk a db' ∧ KeysUnique A db' := by
  unfold App.flushOne App.saveObject App.contentObject at h
  cases hf : A.models.find? fun om => om.model.ct == m.ct with
  | none => rw [hf] at h; simp at h
  | some om =>
    have hom := List.mem_of_find?_eq_some hf
    rw [hf] at h
    simp only at h
    cases hr : (db.rows om.model.table).find? (isRowOf om.model m.oid) with
    | none =>
      rw [hr] at h
      simp only [Except.ok.injEq] at h
      subst h
      exact ⟨hok, hu⟩
    | some r =>
      rw [hr] at h
      simp only at h
      cases hs : A.save om r db with
      | error e => rw [hs] at h; simp at h
      | ok p =>
        rw [hs] at h
        simp only [Except.ok.injEq] at h
        subst h
        have hmem : r ∈ db.rows om.model.table := List.mem_of_find?_eq_some hr
        have hk := kept_save hE hP.this hP.onlyDenorms hu hom hr hs
        have hok' : AggOk a p.1 := C13_count_right hE (hP.counts a ha).1 (noReentry_of_tables hE hP.this hP.acyclic hP.clear) hc (hP.proper om hom)
          ((hP.counts a ha).2.2.2 om hom) (hu om hom).1 ((hu om hom).2 r hmem) hmem rfl hs hok
        exact ⟨hok', hk.unique hP.onlyDenorms hu⟩

theorem RankedProject.count_flushList (hE : Installed A.engine D) {a : AggDenorm} (ha : .aggregate a ∈ D) (hc : a.agg = .count) :
    ∀ (ms : List Mark) {db : Db}, KeysUnique A db → AggOk a db → A.flushList ms db = .ok db' → AggOk a db' ∧ KeysUnique A db'
  | [], db, hu, hok, h => by
    simp only [App.flushList, Except.ok.injEq] at h
    exact h ▸ ⟨hok, hu⟩
  | m :: ms, db, hu, hok, h => by
    simp only [App.flushList] at h
    cases h1 : A.flushOne m db with
    | error e => rw [h1] at h; cases h
    | ok d =>
      rw [h1] at h
      obtain ⟨h2, h3⟩ := hP.count_flushOne hE ha hc hu hok h1
      exact RankedProject.count_flushList hE ha hc ms h3 h2 h

theorem RankedProject.count_flush (hE : Installed A.engine D) {a : AggDenorm} (ha : .aggregate a ∈ D) (hc : a.agg = .count) :
    ∀ (n : Nat) {db : Db}, KeysUnique A db → AggOk a db → A.flush n db = .ok (some db') → AggOk a db'
  | 0, db, _, hok, h => by
    simp only [App.flush] at h
    split at h
    · cases h
      exact hok
    · cases h
  | n + 1, db, hu, hok, h => by
    simp only [App.flush] at h
    split at h
    · cases h
      exact hok
    · cases h1 : A.pass db with
      | error e => rw [h1] at h; cases h
      | ok d =>
        rw [h1] at h
        obtain ⟨h2, h3⟩ := hP.count_flushList hE ha hc _ hu hok h1
        exact RankedProject.count_flush hE ha hc n h3 h2 h

theorem RankedProject.closed : IntClosed A.engine.backend D S := fun a ha _ => ⟨(hP.counts a ha).1.covered, fun f hf => (hP.sums a ha f hf).2⟩

/-- flush() keeps SumFields right. -/
theorem RankedProject.sum_flushOne (hE : Installed A.engine D) {a : AggDenorm} (ha : .aggregate a ∈ D) {f : Col} (hf : a.agg = .sum f) (hu : KeysUnique A db)
    (hok : AggOk a db) (hI : ∀ t, ∀ r ∈ db.rows t, IntRow S t r) {m : Mark} (h : A.flushOne m db = .ok db') :
    AggOk a db' ∧ (∀ t, ∀ r ∈ db'.rows t, IntRow S t r) ∧ KeysUnique A db' := by
  unfold App.flushOne App.saveObject App.contentObject at h
  cases hf : A.models.find? fun om => om.model.ct == m.ct with
  | none => rw [hf] at h; simp at h
  | some om =>
    have hom := List.mem_of_find?_eq_some hf
    rw [hf] at h
    simp only at h
    cases hr : (db.rows om.model.table).find? (isRowOf om.model m.oid) with
    | none =>
      rw [hr] at h
      simp only [Except.ok.injEq] at h
      subst h
      exact ⟨hok, hI, hu⟩
    | some r =>
      rw [hr] at h
      simp only at h
      cases hs : A.save om r db with
      | error e => rw [hs] at h; simp at h
      | ok p =>
        rw [hs] at h
        simp only [Except.ok.injEq] at h
        subst h
        have hmem : r ∈ db.rows om.model.table := List.mem_of_find?_eq_some hr
        have hk := kept_save hE hP.this hP.onlyDenorms hu hom hr hs
        have hok' := sum_call (c := .save om r) (db' := p.1) hE (hP.counts a ha).1 (noReentry_of_tables hE hP.this hP.acyclic hP.clear) hP.closed (hP.sums a ha _ ‹_›).1
          ⟨⟨hP.proper om hom, (hP.counts a ha).2.2.2 om hom, (hu om hom).1, (hu om hom).2 r hmem⟩, hP.numbers om hom, fun f _ _ hS => hI _ r hmem _ hS⟩
          (by simp [App.call, callErr, hs]) hI hok
        exact ⟨hok'.1, hok'.2, hk.unique hP.onlyDenorms hu⟩

theorem RankedProject.sum_flushList (hE : Installed A.engine D) {a : AggDenorm} (ha : .aggregate a ∈ D) {f : Col} (hf : a.agg = .sum f) :
    ∀ (ms : List Mark) {db : Db}, KeysUnique A db → AggOk a db → (∀ t, ∀ r ∈ db.rows t, IntRow S t r) → A.flushList ms db = .ok db' →
      AggOk a db' ∧ (∀ t, ∀ r ∈ db'.rows t, IntRow S t r) ∧ KeysUnique A db'
  | [], db, hu, hok, hI, h => by
    simp only [App.flushList, Except.ok.injEq] at h
    exact h ▸ ⟨hok, hI, hu⟩
  | m :: ms, db, hu, hok, hI, h => by
    simp only [App.flushList] at h
    cases h1 : A.flushOne m db with
    | error e => rw [h1] at h; cases h
    | ok d =>
      rw [h1] at h
      obtain ⟨h2, h3, h4⟩ := hP.sum_flushOne hE ha hf hu hok hI h1
      exact RankedProject.sum_flushList hE ha hf ms h4 h2 h3 h

theorem RankedProject.sum_flush (hE : Installed A.engine D) {a : AggDenorm} (ha : .aggregate a ∈ D) {f : Col} (hf : a.agg = .sum f) :
    ∀ (n : Nat) {db : Db}, KeysUnique A db → AggOk a db → (∀ t, ∀ r ∈ db.rows t, IntRow S t r) → A.flush n db = .ok (some db') → AggOk a db' ∧ ∀ t, ∀ r ∈ db'.rows t, IntRow S t r
  | 0, db, _, hok, hI, h => by
    simp only [App.flush] at h
    split at h
    · cases h
      exact ⟨hok, hI⟩
    · cases h
  | n + 1, db, hu, hok, hI, h => by
    simp only [App.flush] at h
    split at h
    · cases h
      exact ⟨hok, hI⟩
    · cases h1 : A.pass db with
      | error e => rw [h1] at h; cases h
      | ok d =>
        rw [h1] at h
        obtain ⟨h2, h3, h4⟩ := hP.sum_flushList hE ha hf _ hu hok hI h1
        exact RankedProject.sum_flush hE ha hf n h4 h2 h3 h

/-- Programs add markers of models of the project only. -/
theorem RankedProject.known_call (hE : Installed A.engine D) {c : OrmCall} (h : A.call db c = .ok db') (hm : MarksKnown A db) : MarksKnown A db' := by
  have hx : ∀ {s : Stmt} {d : Db}, A.engine.exec A.fuel s db = .ok d → MarksKnown A d := fun he => exec_known (hP.project hE) he hm
  cases c with
  | save om mem =>
    obtain ⟨⟨d, mem'⟩, h1, rfl⟩ := callErr_ok h
    rcases save_issues h1 with ⟨_, _, he⟩ | ⟨_, _, _, _, he⟩ <;> exact hx he
  | saveFields om cols mem =>
    simp only [App.call] at h
    cases hs : A.saveFields om cols mem db with
    | error e => rw [hs] at h; cases h
    | ok x =>
      rw [hs] at h
      cases h
      rcases saveFields_issues hs with ⟨e, _⟩ | ⟨_, _, he⟩
      · rw [e]; exact hm
      · exact hx he
  | create om mem k =>
    obtain ⟨⟨d, mem'⟩, h1, rfl⟩ := callErr_ok h
    obtain ⟨_, _, _, he⟩ := create_issues h1
    exact hx he
  | bulkCreate om objs =>
    obtain ⟨d, h1, rfl⟩ := callErr_ok h
    obtain ⟨rs, _, he⟩ := bulkCreate_issues h1
    exact hx he
  | load om mem =>
    obtain ⟨d, h1, rfl⟩ := callErr_ok h
    rcases load_issues h1 with ⟨_, he⟩ | ⟨_, he⟩ <;> exact hx he
  | stmt s =>
    obtain ⟨d, h1, rfl⟩ := callErr_ok h
    exact hx (exec_ok h1)

theorem RankedProject.known_calls (hE : Installed A.engine D) : ∀ (cs : List OrmCall) (db : Db), MarksKnown A db → MarksKnown A (A.calls cs db)
  | [], _, hm => hm
  | c :: cs, db, hm => by
    simp only [App.calls]
    cases h : A.call db c with
    | error e => exact RankedProject.known_calls hE cs db hm
    | ok db' => exact RankedProject.known_calls hE cs db' (hP.known_call hE h hm)

/-- Programs keep the database in order. -/
theorem RankedProject.inOrder_calls (hE : Installed A.engine D) (hI : InOrder A D cbs S db) {cs : List OrmCall} (hL : LegalProgram A D cbs S cs db) :
    InOrder A D cbs S (A.calls cs db) := by
  have hN := noReentry_of_tables hE hP.this hP.acyclic hP.clear
  have hm : ∀ cb ∈ cbs, KeysOk cb (A.calls cs db) ∧
      ∀ r ∈ (A.calls cs db).rows cb.model.table, r cb.field = cb.value (A.calls cs db) r ∨ Marked cb.model (A.calls cs db) r := fun cb hcb => by
    obtain ⟨om, hF⟩ := hP.flushable hE hcb db
    exact C62_marked_partial hE (hP.wellDeclared hcb) hN (fun om hom => (hP.proper om hom).pk) (fun om hom p hp e => hF.pks om hom p hp e) cs db
      (hL.legal cb hcb) (hI.keys cb hcb) (staleMarked_iff.2 fun r hr => (hI.marked cb hcb r hr).symm)
  exact ⟨hL.unique, hP.known_calls hE cs db hI.known, fun cb hcb => (hm cb hcb).1, fun cb hcb => (hm cb hcb).2, fun a ha hc =>
    C62_count_partial hE (hP.counts a ha).1 hN hc cs db (hL.counts a ha hc) (hI.counts a ha hc), fun a ha f hf =>
    C62_sum_partial hE (hP.counts a ha).1 hN hP.closed (hP.sums a ha f hf).1 cs db (hL.sums a ha f hf) (hI.sums a ha f hf).2 (hI.sums a ha f hf).1⟩

end

theorem ranked_limit {A : App} {D : List Denorm} {cbs : List Callback} {S : List (TableName × Col)} {rank : Nat → Nat} {L : Nat} (hP : RankedProject A.engine.backend A.models D cbs S rank L) (n : Nat) :
    RankedProject (A.limit n).engine.backend (A.limit n).models D cbs S rank L := hP

end Denorm
