import Verif.Spec.Columns
import Verif.Lemmas.TriggerSet
/-!
# Every column of a generated trigger exists
-/
namespace Denorm

theorem TableColumn.own {Ms : List Model} {m : Model} (hm : m ∈ Ms) {c : Col} (h : m.HasColumn c) : TableColumn Ms m.table c :=
  ⟨m, hm, .inl ⟨rfl, h⟩⟩

theorem TableColumn.link {Ms : List Model} {m : Model} (hm : m ∈ Ms) {x : M2M} (hx : x ∈ m.m2ms) {c : Col} (h : c = x.colName ∨ c = x.revName) :
    TableColumn Ms x.through c := ⟨m, hm, .inr ⟨x, hx, rfl, h⟩⟩

/-- What is to be shown about a Trigger object. -/
def PyTrigger.Good (Ms : List Model) (g : PyTrigger) : Prop :=
  (∀ c ∈ g.fields ++ g.contentTypeField.toList, TableColumn Ms g.table c) ∧ ∀ a ∈ g.actions, ∀ p ∈ a.mentions g.table, TableColumn Ms p.1 p.2

theorem columnsExist_of_good {Ms : List Model} {b : Backend} {D : List Denorm} (hN : ∀ g ∈ generated D, ∀ g' ∈ generated D, g.name b = g'.name b → g.table = g'.table) (h : ∀ g ∈ generated D, g.Good Ms) :
    ColumnsExist Ms (installedTriggers b D) := by
  intro tr htr p hp
  obtain ⟨g, hg, h1, h2, _, h3, h4, _⟩ := installed_head htr
  rcases List.mem_append.1 hp with hp | hp
  · obtain ⟨c, hc, rfl⟩ := List.mem_map.1 hp
    rw [h3, h4] at hc
    simp only [h2]
    exact (h g hg).1 c hc
  · obtain ⟨a, ha, hp⟩ := List.mem_flatMap.1 hp
    obtain ⟨g', hg', h1', ha'⟩ := installed_origin htr ha
    have : g.table = g'.table := hN g hg g' hg' (h1.trans h1'.symm)
    rw [h2, this] at hp
    exact (h g' hg').2 a ha' p hp

theorem watched_exist {Ms : List Model} {m : Model} (hm : PlainColumns Ms m) {skip : List String} {c : Col} (hc : c ∈ watchedFields m skip) :
    TableColumn Ms m.table c := by
  simp only [watchedFields, List.mem_filter, List.mem_map] at hc
  obtain ⟨⟨f, ⟨hf, hl⟩, rfl⟩, _⟩ := hc
  exact .own hm.mem ⟨f, hf, hl, hm.names f hf hl⟩

theorem good_model {Ms : List Model} {m : Model} (hm : PlainColumns Ms m) {e : Event} {as : List Action} {ct : Nat} {skip : List String}
    (h : ∀ a ∈ as, ∀ p ∈ a.mentions m.table, TableColumn Ms p.1 p.2) : (mkTrigger (.model m) e as ct skip).Good Ms := by
  refine ⟨fun c hc => ?_, h⟩
  simp only [mkTrigger, Option.toList, List.append_nil] at hc
  exact watched_exist hm hc

theorem good_m2m {Ms : List Model} {m : Model} (hm : m ∈ Ms) {x : M2M} (hx : x ∈ m.m2ms) {e : Event} {as : List Action} {ct : Nat} {skip : List String}
    (h : ∀ a ∈ as, ∀ p ∈ a.mentions x.through, TableColumn Ms p.1 p.2) : (mkTrigger (.m2m x) e as ct skip).Good Ms := by
  refine ⟨fun c hc => ?_, h⟩
  simp only [mkTrigger, Option.toList, List.append_nil, List.mem_cons, List.not_mem_nil, or_false] at hc
  exact .link hm hx hc

theorem good_generic {Ms : List Model} {g : GenericRel} (hg : g.Found Ms) {e : Event} {as : List Action} {ct : Nat} {skip : List String}
    (h : ∀ a ∈ as, ∀ p ∈ a.mentions g.remoteTable, TableColumn Ms p.1 p.2) : (mkTrigger (.generic g) e as ct skip).Good Ms := by
  refine ⟨fun c hc => ?_, h⟩
  obtain ⟨r, hr, ht, _, hf, _, hc'⟩ := hg
  simp only [mkTrigger, Option.toList, List.mem_append, List.mem_singleton] at hc ⊢
  rw [← ht]
  rcases hc with hc | rfl
  · rw [hf] at hc
    obtain ⟨f, hf, rfl⟩ := List.mem_map.1 hc
    obtain ⟨hf, hl⟩ := List.mem_filter.1 hf
    exact .own hr.mem ⟨f, hf, hl, hr.names f hf hl⟩
  · exact .own hr.mem hc'

theorem found_object {Ms : List Model} {g : GenericRel} (hg : g.Found Ms) : TableColumn Ms g.remoteTable g.objectIdField := by
  obtain ⟨r, hr, ht, _, _, h, _⟩ := hg
  exact ht ▸ .own hr.mem h

theorem found_pk {Ms : List Model} {g : GenericRel} (hg : g.Found Ms) : TableColumn Ms g.remoteTable g.remotePk := by
  obtain ⟨r, hr, ht, hp, _, _, _⟩ := hg
  rw [← ht, ← hp]
  exact .own hr.mem hr.pk

theorem PlainColumns.key {Ms : List Model} {m : Model} (h : PlainColumns Ms m) : TableColumn Ms m.table m.pk := .own h.mem h.pk

/-- The triggers on a many-to-many table or on the table a GenericRelation leads to. -/
theorem good_subject {Ms : List Model} {fwd : Bool} {f : M2MLike}
    (hf : match f with | .m2m x => (∃ m ∈ Ms, x ∈ m.m2ms) | .generic g => g.Found Ms) {e : Event} {as : List Action} {ct : Nat} {skip : List String}
    (h : ∀ on, TableColumn Ms on (m2mColumns fwd f).1 → ∀ a ∈ as, ∀ p ∈ a.mentions on, TableColumn Ms p.1 p.2) :
    (mkTrigger f.subject e as ct skip).Good Ms := by
  cases f with
  | m2m x =>
    obtain ⟨m, hm, hx⟩ := hf
    refine good_m2m hm hx (h _ (.link hm hx ?_))
    cases fwd <;> simp [m2mColumns]
  | generic g =>
    refine good_generic hf (h _ ?_)
    cases fwd <;> simp only [m2mColumns]
    · exact found_pk hf
    · exact found_object hf

theorem links_exist {Ms : List Model} {fwd : Bool} {x : M2M} (hf : ∃ m ∈ Ms, x ∈ m.m2ms) :
    TableColumn Ms x.through (m2mColumns fwd (.m2m x)).1 ∧ TableColumn Ms x.through (m2mColumns fwd (.m2m x)).2 := by
  obtain ⟨m, hm, hx⟩ := hf
  cases fwd <;> exact ⟨.link hm hx (by simp [m2mColumns]), .link hm hx (by simp [m2mColumns])⟩

theorem good_callbackM2M {Ms : List Model} {d : Dep} (ho : PlainColumns Ms d.other) {fwd : Bool} {f : M2MLike}
    (hf : match f with | .m2m x => (∃ m ∈ Ms, x ∈ m.m2ms) | .generic g => g.Found Ms) : ∀ g ∈ callbackM2MTriggers d fwd f, g.Good Ms := by
  intro g hg
  rcases List.mem_append.1 hg with hg | hg
  · simp only [List.mem_cons, List.not_mem_nil, or_false] at hg
    rcases hg with rfl | rfl | rfl <;>
    · refine good_subject (fwd := fwd) hf fun on hon a ha p hp => ?_
      simp only [List.mem_cons, List.not_mem_nil, or_false] at ha
      first
      | (rcases ha with rfl | rfl <;> (simp only [Action.mentions, List.mem_singleton] at hp; subst hp; exact hon))
      | (subst ha; simp only [Action.mentions, List.mem_singleton] at hp; subst hp; exact hon)
  · cases f with
    | generic _ => simp at hg
    | m2m x =>
      simp only [List.mem_singleton] at hg
      subst hg
      refine good_model ho fun a ha p hp => ?_
      simp only [List.mem_singleton] at ha
      subst ha
      simp only [Action.mentions, List.mem_cons, List.not_mem_nil, or_false] at hp
      rcases hp with rfl | rfl | rfl
      · exact (links_exist hf).1
      · exact (links_exist hf).2
      · exact ho.key

theorem good_cacheKeyM2M {Ms : List Model} {d : Dep} {fld : Col} (ht : PlainColumns Ms d.this) (hfl : d.this.HasColumn fld)
    (ho : PlainColumns Ms d.other) {fwd : Bool} {f : M2MLike}
    (hf : match f with | .m2m x => (∃ m ∈ Ms, x ∈ m.m2ms) | .generic g => g.Found Ms) : ∀ g ∈ cacheKeyM2MTriggers d fld fwd f, g.Good Ms := by
  intro g hg
  rcases List.mem_append.1 hg with hg | hg
  · simp only [List.mem_cons, List.not_mem_nil, or_false] at hg
    have key : ∀ on s, TableColumn Ms on (m2mColumns fwd f).1 →
        ∀ p ∈ (randomUpdate d.this fld (.eq d.this.pk s (m2mColumns fwd f).1)).mentions on, TableColumn Ms p.1 p.2 := by
      intro on s hon p hp
      simp only [randomUpdate, Action.mentions, SetExpr.mentions, Key.mentions, List.append_nil, List.flatMap_nil, List.cons_append, List.nil_append,
        List.mem_cons, List.not_mem_nil, or_false] at hp
      rcases hp with rfl | rfl | rfl
      · exact .own ht.mem hfl
      · exact ht.key
      · exact hon
    rcases hg with rfl | rfl | rfl <;>
    · refine good_subject (fwd := fwd) hf fun on hon a ha p hp => ?_
      simp only [List.mem_cons, List.not_mem_nil, or_false] at ha
      first
      | (rcases ha with rfl | rfl <;> exact key on _ hon p hp)
      | (subst ha; exact key on _ hon p hp)
  · cases f with
    | generic _ => simp at hg
    | m2m x =>
      simp only [List.mem_singleton] at hg
      subst hg
      refine good_model ho fun a ha p hp => ?_
      simp only [List.mem_singleton] at ha
      subst ha
      simp only [randomUpdate, Action.mentions, SetExpr.mentions, Key.mentions, List.append_nil, List.flatMap_nil, List.cons_append, List.nil_append,
        List.mem_cons, List.not_mem_nil, or_false] at hp
      rcases hp with rfl | rfl | rfl | rfl | rfl
      · exact .own ht.mem hfl
      · exact ht.key
      · exact (links_exist hf).1
      · exact (links_exist hf).2
      · exact ho.key

theorem good_callback {Ms : List Model} {d : Dep} (h : d.Local Ms) : ∀ g ∈ d.callbackTriggers, g.Good Ms := by
  obtain ⟨ht, hp, ho, hr⟩ := h
  have hpk : TableColumn Ms d.this.pkTable d.this.pk := hp ▸ ht.key
  intro g hg
  cases hrel : d.rel with
  | forward f =>
    simp only [hrel] at hr
    have hfc : TableColumn Ms d.this.pkTable f.column := hp ▸ .own ht.mem ⟨f, hr.1, hr.2, rfl⟩
    simp only [Dep.callbackTriggers, hrel, List.mem_cons, List.not_mem_nil, or_false] at hg
    rcases hg with rfl | rfl | rfl <;>
    · refine good_model ho fun a ha p hp' => ?_
      simp only [List.mem_singleton] at ha
      subst ha
      simp only [Action.mentions, List.mem_cons, List.not_mem_nil, or_false] at hp'
      rcases hp' with rfl | rfl | rfl
      · exact hpk
      · exact hfc
      · exact ho.key
  | backward f =>
    simp only [hrel] at hr
    have hfc : TableColumn Ms d.other.table f.column := .own ho.mem ⟨f, hr.1, hr.2, rfl⟩
    simp only [Dep.callbackTriggers, hrel, List.mem_cons, List.not_mem_nil, or_false] at hg
    have h1 : ∀ p ∈ (Action.markSelect d.this.ct f.column d.other.table d.other.pk .new d.other.pk false).mentions d.other.table,
        TableColumn Ms p.1 p.2 := by
      intro p hp'
      simp only [Action.mentions, List.mem_cons, List.not_mem_nil, or_false] at hp'
      rcases hp' with rfl | rfl | rfl
      · exact hfc
      · exact ho.key
      · exact ho.key
    have h2 : ∀ p ∈ (Action.markValues d.this.ct .old f.column false).mentions d.other.table, TableColumn Ms p.1 p.2 := by
      intro p hp'
      simp only [Action.mentions, List.mem_singleton] at hp'
      subst hp'
      exact hfc
    rcases hg with rfl | rfl | rfl <;>
    · refine good_model ho fun a ha p hp' => ?_
      simp only [List.mem_cons, List.not_mem_nil, or_false] at ha
      first
      | (rcases ha with rfl | rfl; exact h1 p hp'; exact h2 p hp')
      | (subst ha; first | exact h1 p hp' | exact h2 p hp')
  | forwardM2M f =>
    simp only [Dep.callbackTriggers, hrel] at hg
    refine good_callbackM2M ho ?_ g hg
    cases f <;> simp only [hrel] at hr
    · exact ⟨_, ht.mem, hr⟩
    · exact hr
  | backwardM2M f =>
    simp only [Dep.callbackTriggers, hrel] at hg
    refine good_callbackM2M ho ?_ g hg
    cases f <;> simp only [hrel] at hr
    · exact ⟨_, ho.mem, hr⟩
    · exact hr

theorem good_cacheKey {Ms : List Model} {d : Dep} {fld : Col} (h : d.Local Ms) (hfl : d.this.HasColumn fld) : ∀ g ∈ d.cacheKeyTriggers fld, g.Good Ms := by
  obtain ⟨ht, hp, ho, hr⟩ := h
  intro g hg
  have key : ∀ k on s c, TableColumn Ms d.this.table k → TableColumn Ms on c →
      ∀ p ∈ (randomUpdate d.this fld (.eq k s c)).mentions on, TableColumn Ms p.1 p.2 := by
    intro k on s c hk hon p hp
    simp only [randomUpdate, Action.mentions, SetExpr.mentions, Key.mentions, List.append_nil, List.flatMap_nil, List.cons_append, List.nil_append,
      List.mem_cons, List.not_mem_nil, or_false] at hp
    rcases hp with rfl | rfl | rfl
    · exact .own ht.mem hfl
    · exact hk
    · exact hon
  cases hrel : d.rel with
  | forward f =>
    simp only [hrel] at hr
    have hfc : TableColumn Ms d.this.table f.column := .own ht.mem ⟨f, hr.1, hr.2, rfl⟩
    simp only [Dep.cacheKeyTriggers, hrel, List.mem_cons, List.not_mem_nil, or_false] at hg
    rcases hg with rfl | rfl | rfl <;>
    · refine good_model ho fun a ha p hp' => ?_
      simp only [List.mem_singleton] at ha
      subst ha
      exact key _ _ _ _ hfc ho.key p hp'
  | backward f =>
    simp only [hrel] at hr
    have hfc : TableColumn Ms d.other.table f.column := .own ho.mem ⟨f, hr.1, hr.2, rfl⟩
    simp only [Dep.cacheKeyTriggers, hrel, List.mem_cons, List.not_mem_nil, or_false] at hg
    rcases hg with rfl | rfl | rfl <;>
    · refine good_model ho fun a ha p hp' => ?_
      simp only [List.mem_cons, List.not_mem_nil, or_false] at ha
      first
      | (rcases ha with rfl | rfl <;> exact key _ _ _ _ ht.key hfc p hp')
      | (subst ha; exact key _ _ _ _ ht.key hfc p hp')
  | forwardM2M f =>
    simp only [Dep.cacheKeyTriggers, hrel] at hg
    refine good_cacheKeyM2M ht hfl ho ?_ g hg
    cases f <;> simp only [hrel] at hr
    · exact ⟨_, ht.mem, hr⟩
    · exact hr
  | backwardM2M f =>
    simp only [Dep.cacheKeyTriggers, hrel] at hg
    refine good_cacheKeyM2M ht hfl ho ?_ g hg
    cases f <;> simp only [hrel] at hr
    · exact ⟨_, ho.mem, hr⟩
    · exact hr

theorem andAll_cols : ∀ (fs : List Filter) (c : Col), c ∈ (andAll fs).cols → ∃ f ∈ fs, c ∈ f.cols
  | [], c, h => by simp [andAll, Filter.cols] at h
  | [f], c, h => ⟨f, by simp, h⟩
  | f :: g :: fs, c, h => by
    simp only [andAll, Filter.cols, List.mem_append] at h
    rcases h with h | h
    · exact ⟨f, by simp, h⟩
    · obtain ⟨f', hf, hc⟩ := andAll_cols (g :: fs) c h
      exact ⟨f', List.mem_cons_of_mem _ hf, hc⟩

theorem Cond.toFilter_cols (x : Cond) : x.toFilter.cols = [x.col] := by
  unfold Cond.toFilter; split <;> rfl

theorem Cond.toNegFilters_cols (x : Cond) (f : Filter) (hf : f ∈ x.toNegFilters) : f.cols = [x.col] := by
  unfold Cond.toNegFilters at hf
  split at hf <;> simp only [List.mem_cons, List.not_mem_nil, or_false] at hf
  · subst hf; rfl
  · rcases hf with rfl | rfl <;> rfl

theorem whereOf_cols {fi ex : List Cond} {f : Filter} (h : whereOf fi ex = some f) {c : Col} (hc : c ∈ f.cols) : ∃ x ∈ fi ++ ex, x.col = c := by
  have key : ∀ fs : List Filter, fs = fi.map Cond.toFilter ++ (if ex = [] then [] else [.not (andAll (ex.flatMap Cond.toNegFilters))]) →
      c ∈ (andAll fs).cols → ∃ x ∈ fi ++ ex, x.col = c := by
    intro fs hfs hc
    obtain ⟨f', hf', hc'⟩ := andAll_cols fs c hc
    rw [hfs] at hf'
    rcases List.mem_append.1 hf' with h1 | h1
    · obtain ⟨x, hx, rfl⟩ := List.mem_map.1 h1
      rw [Cond.toFilter_cols] at hc'
      exact ⟨x, List.mem_append_left _ hx, (List.mem_singleton.1 hc').symm⟩
    · split at h1
      · simp at h1
      · rw [List.mem_singleton] at h1
        subst h1
        simp only [Filter.cols] at hc'
        obtain ⟨f'', hf'', hc''⟩ := andAll_cols _ c hc'
        obtain ⟨x, hx, hf''⟩ := List.mem_flatMap.1 hf''
        rw [x.toNegFilters_cols _ hf''] at hc''
        exact ⟨x, List.mem_append_right _ hx, (List.mem_singleton.1 hc'').symm⟩
  unfold whereOf at h
  generalize heq : fi.map Cond.toFilter ++ (if ex = [] then [] else [.not (andAll (ex.flatMap Cond.toNegFilters))]) = fs at h
  cases fs with
  | nil => simp at h
  | cons f0 fs =>
    cases h
    exact key _ heq.symm hc

theorem good_aggregate {Ms : List Model} {a : AggDenorm} (h : (Denorm.aggregate a).Local Ms) : ∀ g ∈ a.triggers, g.Good Ms := by
  obtain ⟨hm, hr, hf, hk, hl, hs, hc⟩ := h
  have hfk : TableColumn Ms a.related.table a.fk.attname := .own hr.mem ⟨a.fk, hk, hl, hr.names _ hk hl⟩
  have hg : ∀ s, ∀ p ∈ (a.guards s).flatMap (Guard.mentions a.related.table), TableColumn Ms p.1 p.2 := by
    intro s p hp
    unfold AggDenorm.guards at hp
    split at hp
    · simp at hp
    · rename_i f hw
      simp only [List.flatMap_cons, List.flatMap_nil, List.append_nil, Guard.mentions, List.mem_map] at hp
      obtain ⟨c, hcc, rfl⟩ := hp
      obtain ⟨x, hx, rfl⟩ := whereOf_cols hw hcc
      exact .own hr.mem (hc x hx)
  have hup : ∀ s e, (∀ p ∈ SetExpr.mentions a.related.table e, TableColumn Ms p.1 p.2) →
      ∀ p ∈ (Action.update ⟨a.model.table, a.fieldname, e, .eq a.model.pk s a.fk.attname, a.guards s⟩).mentions a.related.table,
        TableColumn Ms p.1 p.2 := by
    intro s e he p hp
    simp only [Action.mentions, Key.mentions, List.mem_append, List.mem_cons, List.not_mem_nil, or_false] at hp
    rcases hp with ((rfl | hp) | rfl | rfl) | hp
    · exact .own hm.mem hf
    · exact he p hp
    · exact hm.key
    · exact hfk
    · exact hg s p hp
  have hi : ∀ p ∈ a.increment.mentions a.related.table, TableColumn Ms p.1 p.2 := by
    refine hup _ _ fun p hp => ?_
    cases hagg : a.agg with
    | count => simp [hagg, Agg.incr, SetExpr.mentions, Term.mentions] at hp
    | sum c =>
      simp only [hagg, Agg.incr, SetExpr.mentions, Term.mentions, List.mem_singleton] at hp
      subst hp
      exact .own hr.mem (hs c hagg)
  have hd : ∀ p ∈ a.decrement.mentions a.related.table, TableColumn Ms p.1 p.2 := by
    refine hup _ _ fun p hp => ?_
    cases hagg : a.agg with
    | count => simp [hagg, Agg.decr, SetExpr.mentions, Term.mentions] at hp
    | sum c =>
      simp only [hagg, Agg.decr, SetExpr.mentions, Term.mentions, List.mem_singleton] at hp
      subst hp
      exact .own hr.mem (hs c hagg)
  intro g hg'
  simp only [AggDenorm.triggers, List.mem_cons, List.not_mem_nil, or_false] at hg'
  rcases hg' with rfl | rfl | rfl <;>
  · refine good_model hr fun x hx p hp => ?_
    simp only [List.mem_cons, List.not_mem_nil, or_false] at hx
    first
    | (rcases hx with rfl | rfl; exact hi p hp; exact hd p hp)
    | (subst hx; first | exact hi p hp | exact hd p hp)

theorem good_denorm {Ms : List Model} {dn : Denorm} (h : dn.Local Ms) : ∀ g ∈ dn.triggers, g.Good Ms := by
  intro g hg
  cases dn with
  | callback bulk m f skip deps =>
    rcases List.mem_append.1 hg with hg | hg
    · cases bulk <;> simp only [if_true, if_false, Bool.false_eq_true, List.not_mem_nil] at hg
      simp only [selfTriggers, List.mem_cons, List.not_mem_nil, or_false] at hg
      rcases hg with rfl | rfl <;>
      · refine good_model h.1 fun a ha p hp => ?_
        simp only [List.mem_singleton] at ha
        subst ha
        simp only [Action.mentions, List.mem_singleton] at hp
        subst hp
        exact h.1.key
    · obtain ⟨d, hd, hg⟩ := List.mem_flatMap.1 hg
      exact good_callback (h.2 d hd) g hg
  | cacheKey m f deps =>
    obtain ⟨d, hd, hg⟩ := List.mem_flatMap.1 hg
    obtain ⟨h1, h2⟩ := h.2 d hd
    exact good_cacheKey h2 (h1 ▸ h.1) g hg
  | aggregate a => exact good_aggregate h g hg

end Denorm
