import Verif.Spec.Works
import Verif.Lemmas.Untouched
import Verif.Props.Finishes
import Verif.Props.Returns
import Verif.Props.Calls
/-!
# Projects whose fields form layers: lemmas
-/
namespace Denorm

section
variable {A : App} {D : List Denorm} {cbs : List Callback} {S : List (TableName × Col)} {layer : TableName → Col → Nat} {L : Nat} {db db' : Db}

theorem noReentry_of_tables (hE : Installed A.engine D) (hthis : ∀ dn ∈ D, ∀ d ∈ dn.deps, d.this = dn.model) (ha : TablesAcyclic D)
    (hc : TableNamesClear D) : NoReentry A.engine := by
  intro _
  refine ⟨fun n => match A.engine.triggers.find? fun tr => tr.name == n with
    | some tr => fedBy D tr.table
    | none => 0, fun tr htr u hu tr' htr' ht' _ _ => ?_⟩
  have hn : (A.engine.triggers.map (·.name)).Nodup := by rw [hE]; exact installed_names_nodup _ D
  have hfind : ∀ x ∈ A.engine.triggers, A.engine.triggers.find? (fun tr => tr.name == x.name) = some x := by
    intro x hx
    cases hf : A.engine.triggers.find? (fun tr => tr.name == x.name) with
    | none => exact absurd (List.find?_eq_none.1 hf x hx) (by simp)
    | some y =>
      have h1 := List.find?_some hf
      have h2 := List.mem_of_find?_eq_some hf
      have aux : ∀ {l : List DbTrigger}, (l.map (·.name)).Nodup → y ∈ l → x ∈ l → y.name = x.name → y = x := by
        intro l
        induction l with
        | nil => intro _ h; simp at h
        | cons z l ih =>
          intro hn hy hx e
          simp only [List.map_cons, List.nodup_cons] at hn
          rcases List.mem_cons.1 hy with h1 | h1 <;> rcases List.mem_cons.1 hx with h2 | h2
          · rw [h1, h2]
          · exact absurd (List.mem_map.2 ⟨x, h2, by rw [← e, h1]⟩) hn.1
          · exact absurd (List.mem_map.2 ⟨y, h1, by rw [e, h2]⟩) hn.1
          · exact ih hn.2 h1 h2 e
      rw [aux hn h2 hx (by simpa using h1)]
  simp only [hfind tr htr, hfind tr' htr']
  rw [ht']
  exact fedBy_lt ha (trigger_feeds hE hthis (fun _ => hc) htr hu)

variable (hP : LayeredProject A.engine.backend A.models D cbs S layer L)
include hP

theorem LayeredProject.thisAll : ∀ dn ∈ D, ∀ d ∈ dn.deps, d.this = dn.model := by
  intro dn hdn d hd
  rcases hP.kinds dn hdn with ⟨cb, hcb, rfl⟩ | ⟨a, rfl⟩
  · simp only [Callback.denorm, Denorm.deps, List.mem_map] at hd
    obtain ⟨d', hd', rfl⟩ := hd
    exact hP.this cb hcb d' hd'
  · simp [Denorm.deps] at hd

theorem LayeredProject.denormalized {cb : Callback} (h : cb ∈ cbs) : Denormalized D cb.model.table cb.field :=
  ⟨cb.denorm, (hP.fields cb h).1, rfl, rfl⟩

theorem LayeredProject.denormCols {om : OrmModel} (hom : om ∈ A.models) {c : Col} (h : c ∈ om.denormCols) : Denormalized D om.model.table c := by
  obtain ⟨f, hf, e⟩ := List.mem_map.1 h
  obtain ⟨hf, hk⟩ := List.mem_filter.1 hf
  obtain ⟨cb, hcb, e1, e2⟩ := hP.computed om hom f hf hk
  have := hP.denormalized hcb
  rw [e1, e2, e] at this
  exact this

theorem LayeredProject.managed (hE : Installed A.engine D) {t : TableName} {c : Col} (h : Managed A.engine t c) :
    ∃ a, Denorm.aggregate a ∈ D ∧ a.model.table = t ∧ a.fieldname = c := by
  obtain ⟨dn, hdn, e1, e2, hk⟩ := managed_maintained hE hP.thisAll h
  rcases hP.kinds dn hdn with ⟨cb, _, rfl⟩ | ⟨a, rfl⟩
  · exact hk.elim
  · exact ⟨a, hdn, e1, e2⟩

theorem LayeredProject.reached (hE : Installed A.engine D) {om : OrmModel} {t : TableName} {c : Col} (h : Reached A.engine om t c) : Denormalized D t c := by
  obtain ⟨a, ha, e1, e2⟩ := hP.managed hE h.managed
  exact ⟨.aggregate a, ha, e1, e2⟩

theorem LayeredProject.touched (hE : Installed A.engine D) {t : TableName} {c : Col} (h : Touched A t c) : Denormalized D t c := by
  obtain ⟨om, hom, ⟨rfl, hc⟩ | hr⟩ := h
  · exact hP.denormCols hom hc
  · exact hP.reached hE hr

theorem LayeredProject.writes {dn : Denorm} (hdn : dn ∈ D) {p : TableName × Col} (h : p ∈ dn.writes) : Denormalized D p.1 p.2 := by
  rcases hP.kinds dn hdn with ⟨cb, _, rfl⟩ | ⟨a, rfl⟩
  · simp [Callback.denorm, Denorm.writes] at h
  · simp only [Denorm.writes, List.mem_singleton] at h
    subst h
    exact ⟨_, hdn, rfl, rfl⟩

theorem LayeredProject.safe (hE : Installed A.engine D) : KeysSafe A where
  kept := fun om hom om' hom' e => by
    have := hP.tables om hom om' hom' e
    subst this
    exact (hP.proper om hom).pk
  free := fun om hom om' _ hr => hP.keys om hom (hP.reached hE hr)

theorem LayeredProject.wellDeclared {cb : Callback} (hcb : cb ∈ cbs) : WellDeclared A.engine.backend D cb where
  declared := (hP.fields cb hcb).1
  agree := fun g hg => covered_of_agree hP.agree (List.mem_flatMap.2 ⟨_, (hP.fields cb hcb).1, hg⟩)
  table := hP.pkTable cb hcb
  own := hP.ownCols cb hcb
  this := hP.this cb hcb
  watched := hP.watched cb hcb
  keys := fun p hp dn hdn hw => hP.pks cb hcb p hp (hP.writes hdn hw)
  links := fun d hd l hl dn hdn hw => by
    refine hP.looks cb hcb d hd (l.1, l.2.2) ?_ (hP.writes hdn hw)
    unfold Dep.m2mTable at hl
    unfold Dep.looks
    split at hl <;> simp_all
    all_goals (subst hl; simp)

/-- No trigger writes a `@denormalized` field. -/
theorem LayeredProject.unreached (hE : Installed A.engine D) {cb : Callback} (hcb : cb ∈ cbs) {om : OrmModel} {t : TableName} {c : Col}
    (ht : cb.model.table = t) (hc : cb.field = c) (hr : Reached A.engine om t c) : False := by
  obtain ⟨a, ha, e1, e2⟩ := hP.managed hE hr.managed
  have := hP.once _ ha _ (hP.fields cb hcb).1 (e1.trans ht.symm) (e2.trans hc.symm)
  simp [Callback.denorm] at this

theorem LayeredProject.flushable (hE : Installed A.engine D) {cb : Callback} (hcb : cb ∈ cbs) (db : Db) : ∃ om, Flushable A D om cb db := by
  obtain ⟨hdn, om, hom, hmodel, pre, post, hs, hpost⟩ := hP.fields cb hcb
  refine ⟨om, hE, hP.wellDeclared hcb, noReentry_of_tables hE hP.thisAll hP.acyclic hP.clear, ?_, hmodel, (hP.proper om hom).cols, ⟨pre, post, hs, ?_⟩, ?_, ?_,
    ?_, hP.safe hE⟩
  · cases hf : A.models.find? fun om => om.model.ct == cb.model.ct with
    | none =>
      have := List.find?_eq_none.1 hf om hom
      simp [hmodel] at this
    | some om' =>
      have h1 := List.find?_some hf
      have h2 := List.mem_of_find?_eq_some hf
      rw [hP.cts om' h2 om hom (by rw [hmodel]; simpa using h1)]
  · intro c hc
    rcases List.mem_append.1 hc with hc | hc
    · refine ⟨fun h => ?_, fun f hf hk h => hpost f hf hk (h ▸ hc)⟩
      subst h
      rcases hP.own cb hcb _ hc with h1 | ⟨_, h1⟩
      · exact h1 (hP.denormalized hcb)
      · exact absurd h1 (Nat.lt_irrefl _)
    · obtain ⟨d, hd, hc⟩ := List.mem_flatMap.1 hc
      have hc' := hP.ownKeys cb hcb d hd c hc
      refine ⟨fun h => hc' (h ▸ hP.denormalized hcb), fun f hf hk h => hc' ?_⟩
      have hd : c ∈ om.denormCols := List.mem_map.2 ⟨f, List.mem_filter.2 ⟨by rw [hs]; simp [hf], hk⟩, h⟩
      have := hP.denormCols hom hd
      rw [hmodel] at this
      exact this
  · intro c hc hr
    simp only [Callback.ownCols, List.cons_append, List.mem_cons] at hc
    have hd := hP.reached hE hr
    rw [hmodel] at hd
    rcases hc with rfl | hc
    · exact hP.unreached hE hcb (by rw [hmodel]) rfl hr
    · rcases List.mem_append.1 hc with hc | hc
      · rcases hP.own cb hcb c hc with h1 | ⟨⟨cb', hcb', e1, e2⟩, _⟩
        · exact h1 hd
        · exact hP.unreached hE hcb' (by rw [e1, hmodel]) e2 hr
      · obtain ⟨d, hd', hc⟩ := List.mem_flatMap.1 hc
        exact hP.ownKeys cb hcb d hd' c hc hd
  · intro d hd
    refine ⟨fun p hp hr => ?_, .inl fun p hp e hc => ?_⟩
    · rcases List.mem_append.1 hp with hp | hp
      · exact hP.looks cb hcb d hd p hp (hP.reached hE hr)
      · obtain ⟨c, hc, rfl⟩ := List.mem_map.1 hp
        rcases hP.reads cb hcb d hd c hc with h1 | ⟨_, ⟨cb', hcb', e1, e2⟩, _⟩
        · exact h1 (hP.reached hE hr)
        · exact hP.unreached hE hcb' e1 e2 hr
    · have hdn := hP.denormCols hom hc
      rcases List.mem_append.1 hp with hp | hp
      · rw [← e] at hdn
        exact hP.looks cb hcb d hd p hp hdn
      · obtain ⟨c, hc1, rfl⟩ := List.mem_map.1 hp
        rcases hP.reads cb hcb d hd c hc1 with h1 | ⟨h1, _⟩
        · rw [← e] at hdn
          exact h1 hdn
        · exact h1 (by rw [← hmodel]; exact e)
  · intro om' hom' p hp e hc
    have hpk : p.2 = om'.model.pk := by
      simp only [Callback.pks, List.mem_cons, List.mem_map] at hp
      rcases hp with rfl | ⟨d, hd, rfl⟩
      · rw [hP.tables om' hom' om hom (by rw [hmodel]; exact e.symm), hmodel]
      · exact (hP.others cb hcb d hd om' hom' e.symm).symm
    exact (hP.proper om' hom').pk (hpk ▸ hc)

theorem LayeredProject.project (hE : Installed A.engine D) : Project A D := by
  have hdep : ∀ dn ∈ D, ∀ d ∈ dn.deps, ∃ cb ∈ cbs, ∃ d' ∈ cb.deps, d'.dep = d := by
    intro dn hdn d hd
    rcases hP.kinds dn hdn with ⟨cb, hcb, rfl⟩ | ⟨a, rfl⟩
    · simp only [Callback.denorm, Denorm.deps, List.mem_map] at hd
      obtain ⟨d', hd', rfl⟩ := hd
      exact ⟨cb, hcb, d', hd', rfl⟩
    · simp [Denorm.deps] at hd
  refine ⟨hE, hP.agree, hP.safe hE, hP.cts, hP.tables, ?_, hP.thisAll, ?_, ?_, ?_, ?_, ?_, ?_⟩
  · intro dn hdn
    rcases hP.kinds dn hdn with ⟨cb, hcb, rfl⟩ | ⟨a, rfl⟩
    · obtain ⟨om, hom, e, _⟩ := (hP.fields cb hcb).2
      exact ⟨om, hom, e⟩
    · exact (hP.counts a hdn).2.1
  · intro dn hdn
    rcases hP.kinds dn hdn with ⟨cb, hcb, rfl⟩ | ⟨a, rfl⟩
    · exact hP.pkTable cb hcb
    · exact (hP.counts a hdn).2.2.1
  · intro dn hdn d hd
    obtain ⟨cb, hcb, d', hd', rfl⟩ := hdep dn hdn d hd
    exact hP.others cb hcb d' hd'
  · intro dn hdn d hd
    obtain ⟨cb, hcb, d', hd', rfl⟩ := hdep dn hdn d hd
    exact hP.generic cb hcb d' hd'
  · intro dn hdn d hd
    obtain ⟨cb, hcb, d', hd', rfl⟩ := hdep dn hdn d hd
    exact hP.through cb hcb d' hd'
  · intro dn hdn d hd
    obtain ⟨cb, hcb, d', hd', rfl⟩ := hdep dn hdn d hd
    refine ⟨fun p hp ht => hP.looks cb hcb d' hd' p hp (hP.touched hE ht), fun c hc ht => ?_⟩
    have := hP.touched hE ht
    rw [hP.this cb hcb d' hd'] at this
    exact hP.ownKeys cb hcb d' hd' c hc this
  · exact fun a ha ht => hP.fks a ha (hP.touched hE ht)

theorem LayeredProject.onlyFields (hE : Installed A.engine D) : OnlyFields A D cbs where
  computed := hP.computed
  unreached := fun cb hcb om _ hr => hP.unreached hE hcb rfl rfl hr
  steady := fun dn hdn tr htr => hP.steady dn hdn tr (by rw [← hE]; exact htr)

theorem LayeredProject.together (hE : Installed A.engine D) (hI : InOrder A D cbs S db) : FlushedTogether A D cbs db where
  each := fun cb hcb => by
    obtain ⟨om, hF⟩ := hP.flushable hE hcb db
    exact ⟨om, hF, hI.keys cb hcb, staleMarked_iff.2 fun r hr => (hI.marked cb hcb r hr).symm⟩
  own := fun cb hcb c hc ht => by
    rcases hP.own cb hcb c hc with h1 | ⟨h1, _⟩
    · exact absurd (hP.touched hE ht) h1
    · exact h1
  reads := fun cb hcb d hd c hc ht => by
    rcases hP.reads cb hcb d hd c hc with h1 | ⟨_, h1, _⟩
    · exact absurd (hP.touched hE ht) h1
    · exact h1

theorem LayeredProject.layered (db : Db) : FieldsLayered cbs (fun p => layer p.1 p.2.1) L db where
  own := fun cb hcb cb' hcb' e hc x _ => by
    rcases hP.own cb hcb _ hc with h1 | ⟨_, h1⟩
    · exact absurd (e ▸ hP.denormalized hcb') h1
    · rw [← e] at h1 ⊢
      exact h1
  related := fun cb hcb cb' hcb' d hd e hc x _ o _ => by
    rcases hP.reads cb hcb d hd _ hc with h1 | ⟨_, _, h1⟩
    · exact absurd (e ▸ hP.denormalized hcb') h1
    · rw [← e] at h1
      exact h1
  bound := fun cb hcb _ _ => hP.layers cb hcb

theorem LayeredProject.finishes (hE : Installed A.engine D) (s : Stmt) (db : Db) : A.engine.Finishes s db :=
  C51_tables_partial hE hP.thisAll (fun _ => hP.clear) hP.acyclic s db

theorem LayeredProject.onlyDenorms : OnlyDenorms A D where
  computed := fun om hom f hf hk => by
    obtain ⟨cb, hcb, e1, e2⟩ := hP.computed om hom f hf hk
    have := hP.denormalized hcb
    rw [e1, e2] at this
    exact this
  saved := fun om hom f hf e => (hP.proper om hom).pk (List.mem_map.2 ⟨f, hf, e⟩)
  keys := hP.keys

/-- flush() keeps CountFields right. -/
theorem LayeredProject.count_flushOne (hE : Installed A.engine D) {a : AggDenorm} (ha : .aggregate a ∈ D) (hc : a.agg = .count) (hu : KeysUnique A db)
    (hok : AggOk a db) {m : Mark} (h : A.flushOne m db = .ok db') : AggOk a db' ∧ KeysUnique A db' := by
  unfold App.flushOne App.saveObject App.contentObject at h
  cases hf : A.models.find? fun om => om.model.ct == m.ct with
  | none => rw [hf] at h; simp at h
  | some om =>
    have hom := List.mem_of_find?_eq_some hf
    rw [hf] at h
    simp only at h
    cases hr : (db.rows om.model.table).find? (isRowOf om.model m.oid) with
    | none =>
      rw [hr] at h
      simp only [Except.ok.injEq] at h
      subst h
      exact ⟨hok, hu⟩
    | some r =>
      rw [hr] at h
      simp only at h
      cases hs : A.save om r db with
      | error e => rw [hs] at h; simp at h
      | ok p =>
        rw [hs] at h
        simp only [Except.ok.injEq] at h
        subst h
        have hmem : r ∈ db.rows om.model.table := List.mem_of_find?_eq_some hr
        have hk := kept_save hE hP.thisAll hP.onlyDenorms hu hom hr hs
        have hok' : AggOk a p.1 := C13_count_right hE (hP.counts a ha).1 (noReentry_of_tables hE hP.thisAll hP.acyclic hP.clear) hc (hP.proper om hom)
          ((hP.counts a ha).2.2.2 om hom) (hu om hom).1 ((hu om hom).2 r hmem) hmem rfl hs hok
        exact ⟨hok', hk.unique hP.onlyDenorms hu⟩

theorem LayeredProject.count_flushList (hE : Installed A.engine D) {a : AggDenorm} (ha : .aggregate a ∈ D) (hc : a.agg = .count) :
    ∀ (ms : List Mark) {db : Db}, KeysUnique A db → AggOk a db → A.flushList ms db = .ok db' → AggOk a db' ∧ KeysUnique A db'
  | [], db, hu, hok, h => by
    simp only [App.flushList, Except.ok.injEq] at h
    exact h ▸ ⟨hok, hu⟩
  | m :: ms, db, hu, hok, h => by
    simp only [App.flushList] at h
    cases h1 : A.flushOne m db with
    | error e => rw [h1] at h; cases h
    | ok d =>
      rw [h1] at h
      obtain ⟨h2, h3⟩ := hP.count_flushOne hE ha hc hu hok h1
      exact LayeredProject.count_flushList hE ha hc ms h3 h2 h

theorem LayeredProject.count_flush (hE : Installed A.engine D) {a : AggDenorm} (ha : .aggregate a ∈ D) (hc : a.agg = .count) :
    ∀ (n : Nat) {db : Db}, KeysUnique A db → AggOk a db → A.flush n db = .ok (some db') → AggOk a db'
  | 0, db, _, hok, h => by
    simp only [App.flush] at h
    split at h
    · cases h
      exact hok
    · cases h
  | n + 1, db, hu, hok, h => by
    simp only [App.flush] at h
    split at h
    · cases h
      exact hok
    · cases h1 : A.pass db with
      | error e => rw [h1] at h; cases h
      | ok d =>
        rw [h1] at h
        obtain ⟨h2, h3⟩ := hP.count_flushList hE ha hc _ hu hok h1
        exact LayeredProject.count_flush hE ha hc n h3 h2 h

theorem LayeredProject.closed : IntClosed A.engine.backend D S := fun a ha _ => ⟨(hP.counts a ha).1.covered, fun f hf => (hP.sums a ha f hf).2⟩

/-- flush() keeps SumFields right. -/
theorem LayeredProject.sum_flushOne (hE : Installed A.engine D) {a : AggDenorm} (ha : .aggregate a ∈ D) {f : Col} (hf : a.agg = .sum f) (hu : KeysUnique A db)
    (hok : AggOk a db) (hI : ∀ t, ∀ r ∈ db.rows t, IntRow S t r) {m : Mark} (h : A.flushOne m db = .ok db') :
    AggOk a db' ∧ (∀ t, ∀ r ∈ db'.rows t, IntRow S t r) ∧ KeysUnique A db' := by
  unfold App.flushOne App.saveObject App.contentObject at h
  cases hf : A.models.find? fun om => om.model.ct == m.ct with
  | none => rw [hf] at h; simp at h
  | some om =>
    have hom := List.mem_of_find?_eq_some hf
    rw [hf] at h
    simp only at h
    cases hr : (db.rows om.model.table).find? (isRowOf om.model m.oid) with
    | none =>
      rw [hr] at h
      simp only [Except.ok.injEq] at h
      subst h
      exact ⟨hok, hI, hu⟩
    | some r =>
      rw [hr] at h
      simp only at h
      cases hs : A.save om r db with
      | error e => rw [hs] at h; simp at h
      | ok p =>
        rw [hs] at h
        simp only [Except.ok.injEq] at h
        subst h
        have hmem : r ∈ db.rows om.model.table := List.mem_of_find?_eq_some hr
        have hk := kept_save hE hP.thisAll hP.onlyDenorms hu hom hr hs
        have hok' := sum_call (c := .save om r) (db' := p.1) hE (hP.counts a ha).1 (noReentry_of_tables hE hP.thisAll hP.acyclic hP.clear) hP.closed (hP.sums a ha _ ‹_›).1
          ⟨⟨hP.proper om hom, (hP.counts a ha).2.2.2 om hom, (hu om hom).1, (hu om hom).2 r hmem⟩, hP.numbers om hom, fun f _ _ hS => hI _ r hmem _ hS⟩
          (by simp [App.call, callErr, hs]) hI hok
        exact ⟨hok'.1, hok'.2, hk.unique hP.onlyDenorms hu⟩

theorem LayeredProject.sum_flushList (hE : Installed A.engine D) {a : AggDenorm} (ha : .aggregate a ∈ D) {f : Col} (hf : a.agg = .sum f) :
    ∀ (ms : List Mark) {db : Db}, KeysUnique A db → AggOk a db → (∀ t, ∀ r ∈ db.rows t, IntRow S t r) → A.flushList ms db = .ok db' →
      AggOk a db' ∧ (∀ t, ∀ r ∈ db'.rows t, IntRow S t r) ∧ KeysUnique A db'
  | [], db, hu, hok, hI, h => by
    simp only [App.flushList, Except.ok.injEq] at h
    exact h ▸ ⟨hok, hI, hu⟩
  | m :: ms, db, hu, hok, hI, h => by
    simp only [App.flushList] at h
    cases h1 : A.flushOne m db with
    | error e => rw [h1] at h; cases h
    | ok d =>
      rw [h1] at h
      obtain ⟨h2, h3, h4⟩ := hP.sum_flushOne hE ha hf hu hok hI h1
      exact LayeredProject.sum_flushList hE ha hf ms h4 h2 h3 h

theorem LayeredProject.sum_flush (hE : Installed A.engine D) {a : AggDenorm} (ha : .aggregate a ∈ D) {f : Col} (hf : a.agg = .sum f) :
    ∀ (n : Nat) {db : Db}, KeysUnique A db → AggOk a db → (∀ t, ∀ r ∈ db.rows t, IntRow S t r) → A.flush n db = .ok (some db') → AggOk a db' ∧ ∀ t, ∀ r ∈ db'.rows t, IntRow S t r
  | 0, db, _, hok, hI, h => by
    simp only [App.flush] at h
    split at h
    · cases h
      exact ⟨hok, hI⟩
    · cases h
  | n + 1, db, hu, hok, hI, h => by
    simp only [App.flush] at h
    split at h
    · cases h
      exact ⟨hok, hI⟩
    · cases h1 : A.pass db with
      | error e => rw [h1] at h; cases h
      | ok d =>
        rw [h1] at h
        obtain ⟨h2, h3, h4⟩ := hP.sum_flushList hE ha hf _ hu hok hI h1
        exact LayeredProject.sum_flush hE ha hf n h4 h2 h3 h

/-- Programs add markers of models of the project only. -/
theorem LayeredProject.known_call (hE : Installed A.engine D) {c : OrmCall} (h : A.call db c = .ok db') (hm : MarksKnown A db) : MarksKnown A db' := by
  have hx : ∀ {s : Stmt} {d : Db}, A.engine.exec A.fuel s db = .ok d → MarksKnown A d := fun he => exec_known (hP.project hE) he hm
  cases c with
  | save om mem =>
    obtain ⟨⟨d, mem'⟩, h1, rfl⟩ := callErr_ok h
    rcases save_issues h1 with ⟨_, _, he⟩ | ⟨_, _, _, _, he⟩ <;> exact hx he
  | saveFields om cols mem =>
    simp only [App.call] at h
    cases hs : A.saveFields om cols mem db with
    | error e => rw [hs] at h; cases h
    | ok x =>
      rw [hs] at h
      cases h
      rcases saveFields_issues hs with ⟨e, _⟩ | ⟨_, _, he⟩
      · rw [e]; exact hm
      · exact hx he
  | create om mem k =>
    obtain ⟨⟨d, mem'⟩, h1, rfl⟩ := callErr_ok h
    obtain ⟨_, _, _, he⟩ := create_issues h1
    exact hx he
  | bulkCreate om objs =>
    obtain ⟨d, h1, rfl⟩ := callErr_ok h
    obtain ⟨rs, _, he⟩ := bulkCreate_issues h1
    exact hx he
  | load om mem =>
    obtain ⟨d, h1, rfl⟩ := callErr_ok h
    rcases load_issues h1 with ⟨_, he⟩ | ⟨_, he⟩ <;> exact hx he
  | stmt s =>
    obtain ⟨d, h1, rfl⟩ := callErr_ok h
    exact hx (exec_ok h1)

theorem LayeredProject.known_calls (hE : Installed A.engine D) : ∀ (cs : List OrmCall) (db : Db), MarksKnown A db → MarksKnown A (A.calls cs db)
  | [], _, hm => hm
  | c :: cs, db, hm => by
    simp only [App.calls]
    cases h : A.call db c with
    | error e => exact LayeredProject.known_calls hE cs db hm
    | ok db' => exact LayeredProject.known_calls hE cs db' (hP.known_call hE h hm)

/-- Programs keep the database in order. -/
theorem LayeredProject.inOrder_calls (hE : Installed A.engine D) (hI : InOrder A D cbs S db) {cs : List OrmCall} (hL : LegalProgram A D cbs S cs db) :
    InOrder A D cbs S (A.calls cs db) := by
  have hN := noReentry_of_tables hE hP.thisAll hP.acyclic hP.clear
  have hm : ∀ cb ∈ cbs, KeysOk cb (A.calls cs db) ∧
      ∀ r ∈ (A.calls cs db).rows cb.model.table, r cb.field = cb.value (A.calls cs db) r ∨ Marked cb.model (A.calls cs db) r := fun cb hcb => by
    obtain ⟨om, hF⟩ := hP.flushable hE hcb db
    exact C62_marked_partial hE (hP.wellDeclared hcb) hN (fun om hom => (hP.proper om hom).pk) (fun om hom p hp e => hF.pks om hom p hp e) cs db
      (hL.legal cb hcb) (hI.keys cb hcb) (staleMarked_iff.2 fun r hr => (hI.marked cb hcb r hr).symm)
  exact ⟨hL.unique, hP.known_calls hE cs db hI.known, fun cb hcb => (hm cb hcb).1, fun cb hcb => (hm cb hcb).2, fun a ha hc =>
    C62_count_partial hE (hP.counts a ha).1 hN hc cs db (hL.counts a ha hc) (hI.counts a ha hc), fun a ha f hf =>
    C62_sum_partial hE (hP.counts a ha).1 hN hP.closed (hP.sums a ha f hf).1 cs db (hL.sums a ha f hf) (hI.sums a ha f hf).2 (hI.sums a ha f hf).1⟩

end

theorem works_limit {A : App} {D : List Denorm} {cbs : List Callback} {S : List (TableName × Col)} {layer : TableName → Col → Nat} {L : Nat} (hP : LayeredProject A.engine.backend A.models D cbs S layer L) (n : Nat) :
    LayeredProject (A.limit n).engine.backend (A.limit n).models D cbs S layer L := hP

end Denorm
