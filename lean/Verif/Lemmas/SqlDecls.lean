import Verif.Lemmas.SqlTrigger
import Verif.Lemmas.TriggerSet
import Verif.Lemmas.Names
/-!
# The triggers of writable declarations can be written
-/
namespace Denorm

variable {D : Dialect}

/-! ## Conditions of aggregates -/

theorem shape_toFilter {c : Cond} (h : (c.lookup = .exact ∧ c.value = .null) ∨ ∀ v ∈ c.values, LitOk D.backend v) (hc : QuotableName D.backend c.col) :
    c.toFilter.Shape D.backend ∧ c.toFilter.isAnd = false := by
  unfold Cond.toFilter
  split
  · exact ⟨hc, rfl⟩
  · rename_i hn
    rcases h with h | h
    · exact absurd h hn
    · exact ⟨⟨hc, h⟩, rfl⟩

theorem shape_toNeg {c : Cond} (h : (c.lookup = .exact ∧ c.value = .null) ∨ ∀ v ∈ c.values, LitOk D.backend v) (hc : QuotableName D.backend c.col) :
    c.toNegFilters ≠ [] ∧ ∀ f ∈ c.toNegFilters, f.Shape D.backend ∧ f.isAnd = false := by
  unfold Cond.toNegFilters
  split
  · refine ⟨by simp, fun f hf => ?_⟩
    simp only [List.mem_singleton] at hf
    subst hf
    exact ⟨hc, rfl⟩
  · rename_i hn
    rcases h with h | h
    · exact absurd h hn
    · refine ⟨by simp, fun f hf => ?_⟩
      simp only [List.mem_cons, List.not_mem_nil, or_false] at hf
      rcases hf with rfl | rfl
      · exact ⟨⟨hc, h⟩, rfl⟩
      · exact ⟨hc, rfl⟩

theorem shape_andAll {b : Backend} : ∀ {fs : List Filter}, fs ≠ [] → (∀ f ∈ fs, f.Shape b ∧ f.isAnd = false) → (andAll fs).Shape b
  | [], h, _ => absurd rfl h
  | [f], _, h => (h f (by simp)).1
  | f :: g :: fs, _, h => by
    have h1 := h f (by simp)
    have h2 := shape_andAll (fs := g :: fs) (by simp) fun x hx => h x (List.mem_cons_of_mem _ hx)
    cases f <;> first | exact ⟨trivial, h1.1, h2⟩ | (cases h1.2)

theorem shape_whereOf {filter exclude : List Cond} (h : ∀ c ∈ filter ++ exclude, (c.lookup = .exact ∧ c.value = .null) ∨ ∀ v ∈ c.values, LitOk D.backend v)
    (hc : ∀ c ∈ filter ++ exclude, QuotableName D.backend c.col) {f : Filter} (hf : whereOf filter exclude = some f) : f.Shape D.backend := by
  have hall : ∀ g ∈ filter.map Cond.toFilter ++ (if exclude = [] then [] else [.not (andAll (exclude.flatMap Cond.toNegFilters))]),
      g.Shape D.backend ∧ g.isAnd = false := by
    intro g hg
    rcases List.mem_append.1 hg with hg | hg
    · obtain ⟨c, hm, rfl⟩ := List.mem_map.1 hg
      exact shape_toFilter (h c (List.mem_append_left _ hm)) (hc c (List.mem_append_left _ hm))
    · by_cases he : exclude = []
      · simp [he] at hg
      · simp only [he, if_false, List.mem_singleton] at hg
        subst hg
        refine ⟨?_, rfl⟩
        rw [Filter.Shape]
        have hn : ∀ c ∈ exclude, c.toNegFilters ≠ [] ∧ ∀ f ∈ c.toNegFilters, f.Shape D.backend ∧ f.isAnd = false := fun c hm =>
          shape_toNeg (h c (List.mem_append_right _ hm)) (hc c (List.mem_append_right _ hm))
        refine shape_andAll ?_ fun x hx => ?_
        · cases exclude with
          | nil => exact absurd rfl he
          | cons c cs =>
            have := (hn c (by simp)).1
            simp [this]
        · obtain ⟨c, hm, hx⟩ := List.mem_flatMap.1 hx
          exact (hn c hm).2 x hx
  unfold whereOf at hf
  generalize hl : filter.map Cond.toFilter ++ (if exclude = [] then [] else [.not (andAll (exclude.flatMap Cond.toNegFilters))]) = l at hf hall
  cases l with
  | nil => simp at hf
  | cons x xs =>
    simp only [Option.some.injEq] at hf
    subst hf
    exact shape_andAll (by simp) hall

/-! ## Generated triggers -/

theorem fit_model {m : Model} (ht : PlainName D m.table) (hc : ∀ f ∈ m.fields, QuotableName D.backend f.attname) {ev : Event} {as : List Action} {ct : Nat}
    {skip : List String} (ha : ∀ a ∈ as, ActionFit D a) : TriggerFit D (mkTrigger (.model m) ev as ct skip) := by
  refine ⟨ht, fun f hf => ?_, fun c hc => ?_, ha⟩
  · have := (List.mem_filter.1 hf).1
    obtain ⟨g, hg, rfl⟩ := List.mem_map.1 this
    exact hc g (List.mem_filter.1 hg).1
  · cases hc

theorem fit_m2m {f : M2M} (h1 : PlainName D f.through) (h2 : PlainName D f.colName) (h3 : PlainName D f.revName) {ev : Event} {as : List Action} {ct : Nat}
    {skip : List String} (ha : ∀ a ∈ as, ActionFit D a) : TriggerFit D (mkTrigger (.m2m f) ev as ct skip) := by
  refine ⟨h1, fun c hc => ?_, fun c hc => ?_, ha⟩
  · simp only [mkTrigger, List.mem_cons, List.not_mem_nil, or_false] at hc
    rcases hc with rfl | rfl
    · exact h2.quotable
    · exact h3.quotable
  · cases hc

theorem fit_generic {g : GenericRel} (h1 : PlainName D g.remoteTable) (h2 : ∀ c ∈ (g.ctFieldName ++ "_id") :: g.remoteFields, QuotableName D.backend c)
    {ev : Event} {as : List Action} {ct : Nat} {skip : List String} (ha : ∀ a ∈ as, ActionFit D a) :
    TriggerFit D (mkTrigger (.generic g) ev as ct skip) := by
  refine ⟨h1, fun c hc => h2 c (List.mem_cons_of_mem _ hc), fun c hc => ?_, ha⟩
  simp only [mkTrigger, Option.some.injEq] at hc
  exact h2 c (by simp [hc])

theorem two {α : Type _} {P : α → Prop} {a b : α} (ha : P a) (hb : P b) : ∀ x ∈ [a, b], P x := by simp [ha, hb]
theorem single {α : Type _} {P : α → Prop} {a : α} (ha : P a) : ∀ x ∈ [a], P x := by simp [ha]
theorem three {α : Type _} {P : α → Prop} {a b c : α} (ha : P a) (hb : P b) (hc : P c) : ∀ x ∈ [a, b, c], P x := by simp [ha, hb, hc]

theorem fit_callback {d : Dep} (hb : ∀ n ∈ d.bare, PlainName D n) (hq : ∀ n ∈ d.columns, QuotableName D.backend n) :
    ∀ t ∈ d.callbackTriggers, TriggerFit D t := by
  rcases d with ⟨this, other, rel, skip⟩
  simp only [Dep.bare, List.cons_append, List.nil_append, List.mem_cons, forall_eq_or_imp] at hb
  obtain ⟨b1, b2, b3, b4, b5, hb⟩ := hb
  have hq1 : ∀ f ∈ other.fields, QuotableName D.backend f.attname := fun f hf => hq _ (List.mem_append_left _ (List.mem_map.2 ⟨f, hf, rfl⟩))
  have hq2 : ∀ n ∈ rel.columns, QuotableName D.backend n := fun n hn => hq _ (List.mem_append_right _ hn)
  have hm : ∀ (fw : Bool) (f : M2MLike), (∀ n ∈ (Rel.forwardM2M f).bare, PlainName D n) → (∀ n ∈ (Rel.forwardM2M f).columns, QuotableName D.backend n) →
      ∀ t ∈ callbackM2MTriggers ⟨this, other, rel, skip⟩ fw f, TriggerFit D t := by
    intro fw f h1 h2 t ht
    cases f with
    | m2m f =>
      simp only [Rel.bare, List.mem_cons, forall_eq_or_imp] at h1
      obtain ⟨c1, c2, c3, _⟩ := h1
      have hcols : PlainName D (m2mColumns fw (.m2m f)).1 ∧ PlainName D (m2mColumns fw (.m2m f)).2 := by
        cases fw
        · exact ⟨c3, c2⟩
        · exact ⟨c2, c3⟩
      have v : ∀ s, ActionFit D (.markValues this.ct s (m2mColumns fw (.m2m f)).1 true) := fun s => hcols.1.quotable
      unfold callbackM2MTriggers at ht
      rcases List.mem_append.1 ht with ht | ht
      · exact three (P := TriggerFit D) (fit_m2m c1 c2 c3 (two (v _) (v _))) (fit_m2m c1 c2 c3 (single (v _))) (fit_m2m c1 c2 c3 (single (v _))) t ht
      · have a : ActionFit D (.markSelect this.ct (m2mColumns fw (.m2m f)).1 f.through (m2mColumns fw (.m2m f)).2 .new other.pk true) :=
          ⟨hcols.1.quotable, c1, hcols.2, b5.quotable⟩
        exact single (P := TriggerFit D) (fit_model b4 hq1 (single a)) t ht
    | generic g =>
      simp only [Rel.bare, List.mem_cons, forall_eq_or_imp] at h1
      obtain ⟨c1, c2, c3, _⟩ := h1
      have hcols : PlainName D (m2mColumns fw (.generic g)).1 := by
        cases fw
        · exact c3
        · exact c2
      have v : ∀ s, ActionFit D (.markValues this.ct s (m2mColumns fw (.generic g)).1 true) := fun s => hcols.quotable
      unfold callbackM2MTriggers at ht
      rcases List.mem_append.1 ht with ht | ht
      · exact three (P := TriggerFit D) (fit_generic c1 h2 (two (v _) (v _))) (fit_generic c1 h2 (single (v _))) (fit_generic c1 h2 (single (v _))) t ht
      · cases ht
  intro t ht
  cases rel with
  | forward f =>
    have hf : PlainName D f.column := hb _ (by simp [Rel.bare])
    have a : ∀ s, ActionFit D (.markSelect this.ct this.pk this.pkTable f.column s other.pk false) := fun s => ⟨b3, b2, hf, b5.quotable⟩
    exact three (P := TriggerFit D) (fit_model b4 hq1 (single (a _))) (fit_model b4 hq1 (single (a _))) (fit_model b4 hq1 (single (a _))) t ht
  | backward f =>
    have hf : PlainName D f.column := hb _ (by simp [Rel.bare])
    have a1 : ActionFit D (.markSelect this.ct f.column other.table other.pk .new other.pk false) := ⟨hf, b4, b5, b5.quotable⟩
    have a2 : ActionFit D (.markValues this.ct .old f.column false) := hf
    exact three (P := TriggerFit D) (fit_model b4 hq1 (two a1 a2)) (fit_model b4 hq1 (single a1)) (fit_model b4 hq1 (single a2)) t ht
  | forwardM2M f => exact hm true f hb hq2 t ht
  | backwardM2M f => exact hm false f (by cases f <;> exact hb) (by cases f <;> exact hq2) t ht

theorem fit_cacheKey {d : Dep} {fieldname : Col} (hf0 : PlainName D fieldname) (hb : ∀ n ∈ d.bare, PlainName D n)
    (hq : ∀ n ∈ d.columns, QuotableName D.backend n) : ∀ t ∈ d.cacheKeyTriggers fieldname, TriggerFit D t := by
  rcases d with ⟨this, other, rel, skip⟩
  simp only [Dep.bare, List.cons_append, List.nil_append, List.mem_cons, forall_eq_or_imp] at hb
  obtain ⟨b1, b2, b3, b4, b5, hb⟩ := hb
  have hq1 : ∀ f ∈ other.fields, QuotableName D.backend f.attname := fun f hf => hq _ (List.mem_append_left _ (List.mem_map.2 ⟨f, hf, rfl⟩))
  have hq2 : ∀ n ∈ rel.columns, QuotableName D.backend n := fun n hn => hq _ (List.mem_append_right _ hn)
  have u : ∀ {k : Key}, KeyFit D k → ActionFit D (randomUpdate this fieldname k) := fun hk => ⟨b1, hf0, trivial, hk, by simp⟩
  have hm : ∀ (fw : Bool) (f : M2MLike), (∀ n ∈ (Rel.forwardM2M f).bare, PlainName D n) → (∀ n ∈ (Rel.forwardM2M f).columns, QuotableName D.backend n) →
      ∀ t ∈ cacheKeyM2MTriggers ⟨this, other, rel, skip⟩ fieldname fw f, TriggerFit D t := by
    intro fw f h1 h2 t ht
    cases f with
    | m2m f =>
      simp only [Rel.bare, List.mem_cons, forall_eq_or_imp] at h1
      obtain ⟨c1, c2, c3, _⟩ := h1
      have hcols : PlainName D (m2mColumns fw (.m2m f)).1 ∧ PlainName D (m2mColumns fw (.m2m f)).2 := by
        cases fw
        · exact ⟨c3, c2⟩
        · exact ⟨c2, c3⟩
      have v : ∀ s, ActionFit D (randomUpdate this fieldname (.eq this.pk s (m2mColumns fw (.m2m f)).1)) := fun s => u ⟨b3.quotable, hcols.1.quotable⟩
      unfold cacheKeyM2MTriggers at ht
      rcases List.mem_append.1 ht with ht | ht
      · exact three (P := TriggerFit D) (fit_m2m c1 c2 c3 (two (v _) (v _))) (fit_m2m c1 c2 c3 (single (v _))) (fit_m2m c1 c2 c3 (single (v _))) t ht
      · have a : KeyFit D (.inSelect this.pk (m2mColumns fw (.m2m f)).1 f.through (m2mColumns fw (.m2m f)).2 .new other.pk) :=
          ⟨b3, hcols.1, c1, hcols.2, b5.quotable⟩
        exact single (P := TriggerFit D) (fit_model b4 hq1 (single (u a))) t ht
    | generic g =>
      simp only [Rel.bare, List.mem_cons, forall_eq_or_imp] at h1
      obtain ⟨c1, c2, c3, _⟩ := h1
      have hcols : PlainName D (m2mColumns fw (.generic g)).1 := by
        cases fw
        · exact c3
        · exact c2
      have v : ∀ s, ActionFit D (randomUpdate this fieldname (.eq this.pk s (m2mColumns fw (.generic g)).1)) := fun s => u ⟨b3.quotable, hcols.quotable⟩
      unfold cacheKeyM2MTriggers at ht
      rcases List.mem_append.1 ht with ht | ht
      · exact three (P := TriggerFit D) (fit_generic c1 h2 (two (v _) (v _))) (fit_generic c1 h2 (single (v _))) (fit_generic c1 h2 (single (v _))) t ht
      · cases ht
  intro t ht
  cases rel with
  | forward f =>
    have hf : PlainName D f.column := hb _ (by simp [Rel.bare])
    have a : ∀ s, ActionFit D (randomUpdate this fieldname (.eq f.column s other.pk)) := fun s => u ⟨hf.quotable, b5.quotable⟩
    exact three (P := TriggerFit D) (fit_model b4 hq1 (single (a _))) (fit_model b4 hq1 (single (a _))) (fit_model b4 hq1 (single (a _))) t ht
  | backward f =>
    have hf : PlainName D f.column := hb _ (by simp [Rel.bare])
    have a : ∀ s, ActionFit D (randomUpdate this fieldname (.eq this.pk s f.column)) := fun s => u ⟨b3.quotable, hf.quotable⟩
    exact three (P := TriggerFit D) (fit_model b4 hq1 (two (a _) (a _))) (fit_model b4 hq1 (single (a _))) (fit_model b4 hq1 (single (a _))) t ht
  | forwardM2M f => exact hm true f hb hq2 t ht
  | backwardM2M f => exact hm false f (by cases f <;> exact hb) (by cases f <;> exact hq2) t ht

theorem fit_denorm {d : Denorm} (h : d.Writable D) : ∀ t ∈ d.triggers, TriggerFit D t := by
  obtain ⟨hb, hq, hv⟩ := h
  intro t ht
  cases d with
  | callback bu m f skip deps =>
    simp only [Denorm.triggers, List.mem_append] at ht
    have b1 : PlainName D m.table := hb _ (by simp [Denorm.bare])
    have b2 : PlainName D m.pk := hb _ (by simp [Denorm.bare])
    rcases ht with ht | ht
    · have hq1 : ∀ g ∈ m.fields, QuotableName D.backend g.attname := fun g hg => hq _ (List.mem_append_left _ (List.mem_map.2 ⟨g, hg, rfl⟩))
      have a : ActionFit D (.markValues m.ct .new m.pk true) := b2.quotable
      cases bu
      · exact two (P := TriggerFit D) (fit_model b1 hq1 (single a)) (fit_model b1 hq1 (single a)) t ht
      · cases ht
    · obtain ⟨d, hd, ht⟩ := List.mem_flatMap.1 ht
      exact fit_callback (fun n hn => hb n (List.mem_append_right _ (List.mem_flatMap.2 ⟨d, hd, hn⟩)))
        (fun n hn => hq n (List.mem_append_right _ (List.mem_flatMap.2 ⟨d, hd, hn⟩))) t ht
  | cacheKey m f deps =>
    obtain ⟨d, hd, ht⟩ := List.mem_flatMap.1 ht
    exact fit_cacheKey (hb _ (by simp [Denorm.bare])) (fun n hn => hb n (List.mem_cons_of_mem _ (List.mem_flatMap.2 ⟨d, hd, hn⟩)))
      (fun n hn => hq n (List.mem_flatMap.2 ⟨d, hd, hn⟩)) t ht
  | aggregate a =>
    simp only [Denorm.bare, List.mem_cons, forall_eq_or_imp] at hb
    obtain ⟨b1, b2, b3, b4, b5, _⟩ := hb
    have hq1 : ∀ g ∈ a.related.fields, QuotableName D.backend g.attname := fun g hg =>
      hq _ (List.mem_append_left _ (List.mem_append_left _ (List.mem_map.2 ⟨g, hg, rfl⟩)))
    have hg : ∀ s, ∀ g ∈ a.guards s, GuardFit D g := by
      intro s g hg
      unfold AggDenorm.guards at hg
      cases hw : whereOf a.filter a.exclude with
      | none => simp [hw] at hg
      | some f =>
        simp only [hw, List.mem_singleton] at hg
        subst hg
        exact shape_whereOf hv (fun c hc => hq _ (List.mem_append_right _ (List.mem_map.2 ⟨c, hc, rfl⟩))) hw
    have hs : ∀ c, a.agg = .sum c → QuotableName D.backend c := fun c hc =>
      hq _ (List.mem_append_left _ (List.mem_append_right _ (by simp [hc])))
    have a1 : ActionFit D a.increment := by
      refine ⟨b1, b3, ?_, ⟨b2.quotable, b5.quotable⟩, hg _⟩
      cases ha : a.agg with
      | count => simp only [Agg.incr]; trivial
      | sum c => simp only [Agg.incr]; exact hs c ha
    have a2 : ActionFit D a.decrement := by
      refine ⟨b1, b3, ?_, ⟨b2.quotable, b5.quotable⟩, hg _⟩
      cases ha : a.agg with
      | count => simp only [Agg.decr]; trivial
      | sum c => simp only [Agg.decr]; exact hs c ha
    exact three (P := TriggerFit D) (fit_model b4 hq1 (two a1 a2)) (fit_model b4 hq1 (single a1)) (fit_model b4 hq1 (single a2)) t ht

theorem fit_built {decls : List Denorm} (h : ∀ d ∈ decls, d.Writable D) : ∀ p ∈ buildTriggerset D.backend decls, TriggerFit D p.2 := by
  intro p hp
  have hinv := buildInv D.backend decls
  have hgen : ∀ g ∈ generated decls, TriggerFit D g := by
    intro g hg
    obtain ⟨d, hd, hg⟩ := List.mem_flatMap.1 hg
    exact fit_denorm (h d hd) g hg
  obtain ⟨g, hg, _, h1, h2, h3, h4, h5⟩ := hinv.head p hp
  have hf := hgen g hg
  refine ⟨by rw [h1]; exact hf.table, by rw [h3]; exact hf.fields, ?_, ?_⟩
  · rw [h4]; exact hf.ctField
  · intro a ha
    obtain ⟨g', hg', _, ha'⟩ := hinv.origin p hp a ha
    exact (hgen g' hg').actions a ha'

/-! ## Names of triggers -/

theorem foldCase_append (s t : String) : foldCase (s ++ t) = foldCase s ++ foldCase t := by
  simp [foldCase, String.ofList_append]

theorem wordText_append {s t : String} (h : WordText s) (h' : t.toList.all isWordChar = true) : WordText (s ++ t) := by
  refine ⟨fun e => ?_, ?_⟩
  · have := congrArg String.toList e
    simp only [String.toList_append] at this
    have h1 : s.toList = [] := List.append_eq_nil_iff.1 this |>.1
    exact h.1 (by rw [← String.ofList_toList (s := s), h1])
  · rw [String.toList_append, List.all_append, h.2, h', Bool.and_self]

theorem digits_word (n : Nat) : (toString n).toList.all isWordChar = true := (wordText_nat n).2

theorem toLower_digit {c : Char} (h : c.isDigit = true) : c.toLower = c := by
  unfold Char.toLower
  rw [dif_neg]
  simp only [Char.isDigit, Bool.and_eq_true, decide_eq_true_eq] at h
  intro h2
  exact absurd (Nat.le_trans h2.1 h.2) (by decide)

theorem foldCase_nat (n : Nat) : foldCase (toString n) = toString n := by
  have hr : toString n = Nat.repr n := rfl
  have h : ∀ c ∈ (toString n).toList, c.toLower = c := by
    intro c hc
    rw [hr, Nat.repr, String.toList_ofList] at hc
    exact toLower_digit (Nat.isDigit_of_mem_toDigits (by decide) (by decide) hc)
  unfold foldCase
  rw [List.map_congr_left (g := id) h, List.map_id, String.ofList_toList]

theorem plain_denorm (hD : DialectOk D) {rest : String} (hw : rest.toList.all isWordChar = true) (hl : D.backend = .postgresql → foldCase rest = rest) :
    PlainName D ("denorm_" ++ rest) ∧ PlainName D ("func_" ++ ("denorm_" ++ rest)) := by
  have e1 : foldCase ("denorm_" ++ rest) = "denorm_" ++ foldCase rest := by
    rw [foldCase_append, show foldCase "denorm_" = "denorm_" by decide]
  have e2 : "func_" ++ ("denorm_" ++ rest) = "func_denorm_" ++ rest := by
    rw [← String.append_assoc, show ("func_" : String) ++ "denorm_" = "func_denorm_" by decide]
  have e3 : foldCase ("func_denorm_" ++ rest) = "func_denorm_" ++ foldCase rest := by
    rw [foldCase_append, show foldCase "func_denorm_" = "func_denorm_" by decide]
  refine ⟨⟨wordText_append ⟨by decide, by decide⟩ hw, ?_, ?_, fun h => ?_⟩, ?_⟩
  · rw [String.toList_append]; rfl
  · rw [e1]; exact hD.own _
  · rw [e1, hl h]
  · rw [e2]
    refine ⟨wordText_append ⟨by decide, by decide⟩ hw, ?_, ?_, fun h => ?_⟩
    · rw [String.toList_append]; rfl
    · rw [e3]; exact hD.func _
    · rw [e3, hl h]

theorem plain_trigger_name (hD : DialectOk D) {t : PyTrigger} (ht : PlainName D t.table) (b : Backend) :
    PlainName D (t.name b) ∧ PlainName D ("func_" ++ t.name b) := by
  have he : (t.event.str).toList.all isWordChar = true ∧ foldCase t.event.str = t.event.str := by cases t.event <;> decide
  have hbase : ∀ s : String, s.toList.all isWordChar = true → (D.backend = .postgresql → foldCase s = s) →
      PlainName D (baseName t.event s) ∧ PlainName D ("func_" ++ baseName t.event s) := by
    intro s h1 h2
    have e : baseName t.event s = "denorm_" ++ ("after_row_" ++ t.event.str ++ "_on_" ++ s) := by
      rw [baseName_eq, show ("denorm_after_row_" : String) = "denorm_" ++ "after_row_" by decide]
      simp only [String.append_assoc]
    rw [e]
    refine plain_denorm hD ?_ fun h => ?_
    · simp only [String.toList_append, List.all_append, he.1, h1]; decide
    · simp only [foldCase_append, he.2, h2 h, show foldCase "after_row_" = "after_row_" by decide, show foldCase "_on_" = "_on_" by decide]
  have h1 := hbase t.table ht.word.2 ht.lower
  have h2 : PlainName D (baseName t.event t.table ++ "_" ++ toString t.contentType) ∧
      PlainName D ("func_" ++ (baseName t.event t.table ++ "_" ++ toString t.contentType)) := by
    rw [baseName_suffix]
    refine hbase _ ?_ fun h => ?_
    · simp only [String.toList_append, List.all_append, ht.word.2, digits_word]; decide
    · simp only [foldCase_append, foldCase_nat, ht.lower h, show foldCase "_" = "_" by decide]
  unfold PyTrigger.name
  split
  · exact h1
  · exact h1
  · exact h2

theorem plain_built {decls : List Denorm} (hD : DialectOk D) (h : ∀ d ∈ decls, d.Writable D) {p : String × PyTrigger}
    (hp : p ∈ buildTriggerset D.backend decls) : PlainName D p.1 ∧ PlainName D ("func_" ++ p.1) := by
  obtain ⟨g, hg, h1, _⟩ := (buildInv D.backend decls).head p hp
  obtain ⟨d, hd, hg⟩ := List.mem_flatMap.1 hg
  rw [← h1]
  exact plain_trigger_name hD (fit_denorm (h d hd) g hg).table _

theorem prefix_denorm (b : Backend) (t : PyTrigger) : ∃ rest, t.name b = "denorm_" ++ rest := by
  have h : ∀ s, baseName t.event s = "denorm_" ++ ("after_row_" ++ t.event.str ++ "_on_" ++ s) := by
    intro s
    rw [baseName_eq, show ("denorm_after_row_" : String) = "denorm_" ++ "after_row_" by decide]
    simp only [String.append_assoc]
  unfold PyTrigger.name
  split
  · exact ⟨_, h _⟩
  · exact ⟨_, h _⟩
  · rw [baseName_suffix]; exact ⟨_, h _⟩

theorem foldCase_fix {s : String} : foldCase s = s ↔ ∀ c ∈ s.toList, c.toLower = c := by
  constructor
  · intro h c hc
    have h1 := congrArg String.toList h
    unfold foldCase at h1
    rw [String.toList_ofList] at h1
    have : ∀ l : List Char, l.map Char.toLower = l → ∀ c ∈ l, c.toLower = c := by
      intro l
      induction l with
      | nil => intro _ c hc; cases hc
      | cons x l ih =>
        intro h c hc
        simp only [List.map_cons, List.cons.injEq] at h
        rcases List.mem_cons.1 hc with rfl | hc
        · exact h.1
        · exact ih h.2 c hc
    exact this _ h1 c hc
  · intro h
    unfold foldCase
    rw [List.map_congr_left (g := id) h, List.map_id, String.ofList_toList]

/-- A shortened name is still plain. -/
theorem plain_cut (hD : DialectOk D) {rest tail : String} (hn : PlainName D ("denorm_" ++ rest)) (ht : ∀ c ∈ tail.toList, isWordChar c = true)
    (hl : D.backend = .postgresql → ∀ c ∈ tail.toList, c.toLower = c) (k : Nat) :
    PlainName D (String.ofList (("denorm_" ++ rest).toList.take (7 + k)) ++ tail) ∧
      PlainName D ("func_" ++ (String.ofList (("denorm_" ++ rest).toList.take (7 + k)) ++ tail)) := by
  have e : String.ofList (("denorm_" ++ rest).toList.take (7 + k)) ++ tail = "denorm_" ++ (String.ofList (rest.toList.take k) ++ tail) := by
    have h7 : ("denorm_" : String).toList.length = 7 := by decide
    rw [String.toList_append, List.take_append, h7, List.take_of_length_le (by rw [h7]; omega), show 7 + k - 7 = k by omega, String.ofList_append,
      String.ofList_toList, String.append_assoc]
  rw [e]
  have hw := hn.word.2
  rw [String.toList_append, List.all_append, Bool.and_eq_true] at hw
  refine plain_denorm hD ?_ fun hp => ?_
  · rw [String.toList_append, String.toList_ofList, List.all_append, Bool.and_eq_true]
    refine ⟨List.all_eq_true.2 fun c hc => List.all_eq_true.1 hw.2 c (List.mem_of_mem_take hc), List.all_eq_true.2 ht⟩
  · have h1 := foldCase_fix.1 (hn.lower hp)
    refine foldCase_fix.2 fun c hc => ?_
    rw [String.toList_append, String.toList_ofList, List.mem_append] at hc
    rcases hc with hc | hc
    · exact h1 c (by rw [String.toList_append]; exact List.mem_append_right _ (List.mem_of_mem_take hc))
    · exact hl hp c hc

theorem plain_written (hD : DialectOk D) {hash : String → String} {draws : Nat → String} (hp : NamePieces hash draws) {name rest : String}
    (e : name = "denorm_" ++ rest) (hn : PlainName D name ∧ PlainName D ("func_" ++ name)) (n : Nat) :
    (PlainName D (writtenName D.backend hash (draws n) name) ∧ PlainName D ("func_" ++ writtenName D.backend hash (draws n) name)) ∧
      createdName D.backend hash (draws n) name = writtenName D.backend hash (draws n) name := by
  cases hb : D.backend
  · exact ⟨hn, rfl⟩
  · refine ⟨?_, rfl⟩
    unfold writtenName
    simp only
    split
    · rw [e] at hn ⊢
      exact plain_cut hD hn.1 (hp.draws n) (fun h => by rw [hb] at h; cases h) 38
    · exact hn
  · have h : PlainName D (truncateName hash name (63 - 5)) ∧ PlainName D ("func_" ++ truncateName hash name (63 - 5)) := by
      unfold truncateName
      split
      · exact hn
      · have h4 : ∀ c ∈ (String.ofList ((hash name).toList.take 4)).toList, isWordChar c = true ∧ c.toLower = c := by
          intro c hc
          rw [String.toList_ofList] at hc
          exact hp.hash name c (List.mem_of_mem_take hc)
        generalize String.ofList ((hash name).toList.take 4) = tail at h4 ⊢
        rw [e] at hn ⊢
        exact plain_cut hD hn.1 (fun c hc => (h4 c hc).1) (fun _ c hc => (h4 c hc).2) 47
    exact ⟨h, h.1.lower hb⟩

end Denorm
