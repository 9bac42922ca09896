import Verif.Spec.AggManagers
import Verif.Demo
import Verif.Lemmas.Install
import Verif.DemoFacts
/-!
# CountField and SumField over all kinds of managers, in all versions of Django (C60)
-/
namespace Denorm

theorem appendAll_of {v : Nat × Nat} {b : Backend} : ∀ {D : List Denorm} {ts : TriggerSet},
    (∀ a, Denorm.aggregate a ∈ D → resolves a.related (a.filter ++ a.exclude) = true) →
    appendAll v b ts (D.map AnyDenorm.of) = .ok (D.foldl (fun ts d => ts.append b d.triggers) ts)
  | [], ts, _ => rfl
  | d :: D, ts, h => by
    have ht : (AnyDenorm.of d).triggers v = .ok d.triggers := by
      cases d with
      | callback => rfl
      | cacheKey => rfl
      | aggregate a =>
        have hr := h a (List.mem_cons_self ..)
        have hm : (!(ManagerOf.reverseFk a.related a.fk).hasField v && !(ManagerOf.reverseFk a.related a.fk).hasRelated v) = false := by
          unfold ManagerOf.hasField ManagerOf.hasRelated
          cases since19 v <;> rfl
        simp only [AnyDenorm.of, AnyDenorm.triggers, AnyAgg.ofFk, AnyAgg.triggers, AnyAgg.relatedModel, hm, hr, Bool.false_eq_true, if_false, Bool.not_true]
        rfl
    rw [List.map_cons, appendAll, ht]
    exact appendAll_of fun a ha => h a (List.mem_cons_of_mem _ ha)

theorem resolves_iff {m : Model} {cs : List Cond} : resolves m cs = true ↔ ∀ c ∈ cs, ∃ f ∈ m.fields, f.attname = c.col := by
  simp [resolves]

/-- C60, ForeignKeys: in every version of Django `denorm_init` installs the same triggers, the ones that the theorems about CountField and SumField (C10–C14)
are about. -/
theorem C60_foreign_key_partial {D : List Denorm} (h : ∀ a, Denorm.aggregate a ∈ D → ∀ c ∈ a.filter ++ a.exclude, ∃ f ∈ a.related.fields, f.attname = c.col) (v : Nat × Nat) (b : Backend)
    (hash : String → String) (draws : Nat → String) (fails : Nat → Bool) (u : String) (s : Server) :
    installAny v b hash draws fails u (D.map AnyDenorm.of) s = installTriggers b hash draws fails u D s := by
  unfold installAny
  rw [appendAll_of fun a ha => resolves_iff.2 (h a ha)]
  rfl

theorem appendAll_error {v : Nat × Nat} {b : Backend} {e : PyErr} {d : AnyDenorm} (he : d.triggers v = .error e) : ∀ {ds : List AnyDenorm} {ts : TriggerSet}, d ∈ ds →
    ∃ e', appendAll v b ts ds = .error e'
  | [], _, h => by cases h
  | d' :: ds, ts, h => by
    unfold appendAll
    cases ht : d'.triggers v with
    | error e' => exact ⟨e', rfl⟩
    | ok trs =>
      rcases List.mem_cons.1 h with rfl | h
      · rw [he] at ht; cases ht
      · exact appendAll_error he h

theorem m2m_error {v : Nat × Nat} {a : AnyAgg} (hm : a.manager.isM2M = true) (hv : a.manager.hasRelated v = false) : ∃ e, a.triggers v = .error e := by
  have hw : ∀ f s, a.relatedWhere v f s = .error .attributeError := fun f s => by simp [AnyAgg.relatedWhere, hv]
  have ht : ∀ f, a.m2mTriggers v f = .error .attributeError := fun f => by simp [AnyAgg.m2mTriggers, hw]
  unfold AnyAgg.triggers
  split
  · exact ⟨_, rfl⟩
  split
  · exact ⟨_, rfl⟩
  cases hman : a.manager with
  | reverseFk => rw [hman] at hm; cases hm
  | reverseM2M _ f => exact ⟨_, by simp only [ht]; rfl⟩
  | forwardM2M f => exact ⟨_, by simp only [ht]; rfl⟩

/-- **C60 is violated** since Django 1.9, in every project with a CountField or SumField over a many-to-many relation: `denorm_init` raises an exception, and no trigger is
installed, not even those of other fields. -/
theorem C60_violated {v : Nat × Nat} (hv : since19 v = true) {ds : List AnyDenorm} {a : AnyAgg} (ha : AnyDenorm.agg a ∈ ds) (hm : a.manager.isM2M = true) (b : Backend)
    (hash : String → String) (draws : Nat → String) (fails : Nat → Bool) (u : String) (s : Server) :
    installAny v b hash draws fails u ds s = (s, false) := by
  obtain ⟨e, he⟩ := m2m_error (v := v) hm (by simp [ManagerOf.hasRelated, hv])
  obtain ⟨e', h⟩ := appendAll_error (b := b) (d := .agg a) (ts := []) he ha
  unfold installAny
  rw [h]

/-- In Django 1.8 this is so for the ManyToManyFields of the model itself. -/
theorem C60_violated_forward {v : Nat × Nat} {ds : List AnyDenorm} {a : AnyAgg} (ha : AnyDenorm.agg a ∈ ds) {f : M2M} (hm : a.manager = .forwardM2M f) (b : Backend)
    (hash : String → String) (draws : Nat → String) (fails : Nat → Bool) (u : String) (s : Server) :
    installAny v b hash draws fails u ds s = (s, false) := by
  obtain ⟨e, he⟩ := m2m_error (v := v) (a := a) (by rw [hm]; rfl) (by simp [ManagerOf.hasRelated, hm])
  obtain ⟨e', h⟩ := appendAll_error (b := b) (d := .agg a) (ts := []) he ha
  unfold installAny
  rw [h]

/-! ## Cases -/

namespace Labels
open Demo (fld row)
set_option maxRecDepth 100000

/-- `Article.labels = ManyToManyField(Label)`, `Label.article_count = CountField('article_set')` -/
def label : Model :=
  { repr := "<class 'app.Label'>", appLabel := "app", name := "Label", table := "label", pkTable := "label", pk := "id", ct := 21,
    fields := [fld "id", fld "article_count"] }
def labels : M2M := ⟨"labels", "<class 'app.Label'>", "article_labels", "article_id", "label_id"⟩
def article : Model :=
  { repr := "<class 'app.Article'>", appLabel := "app", name := "Article", table := "article", pkTable := "article", pk := "id", ct := 22,
    fields := [fld "id", fld "title"], m2ms := [labels] }
def articleCount : AnyAgg := { model := label, fieldname := "article_count", manager := .reverseM2M article labels, agg := .count }

/-- The triggers of Django 1.8. -/
def triggers18 : List PyTrigger := match articleCount.triggers (1, 8) with | .ok trs => trs | .error _ => []

def engine18 (b : Backend) : Engine := ⟨b, ((TriggerSet.append b [] triggers18).map fun p => p.2.compile p.1), fun _ => 0⟩

/-- Labels 1 and 2, articles 1, 2 and 3, no links. -/
def db : Db :=
  ⟨fun t => if t = "label" then [row [("id", .int 1), ("article_count", .int 0)], row [("id", .int 2), ("article_count", .int 0)]]
    else if t = "article" then [row [("id", .int 1), ("title", .text "a")], row [("id", .int 2), ("title", .text "b")], row [("id", .int 3), ("title", .text "c")]] else [], [], 0⟩

/-- `article.labels.add(label)` -/
def link (article label : Int) : Stmt := .insert "article_labels" [row [("article_id", .int article), ("label_id", .int label)]]
/-- `article.labels.remove(label)` -/
def unlink (article label : Int) : Stmt := .delete "article_labels" fun r => decide (r "article_id" = .int article ∧ r "label_id" = .int label)
/-- The link of the article is changed to another label. -/
def relink (article label : Int) : Stmt := .update "article_labels" (fun r => decide (r "article_id" = .int article)) fun _ r c => if c = "label_id" then .int label else r c

/-- **C60 is violated** in Django 1.8 as well (sqlite and PostgreSQL; MySQL does not allow the generated UPDATE to read the table that it changes): the triggers can be
installed, and then a link is counted only if there is, by chance, a *label* with the key of the linked article. -/
theorem C60_violated_18 (b : Backend) (hb : b ≠ .mysql) : articleCount.triggers (1, 8) = .ok triggers18 ∧ LinkCountIsRight articleCount article labels db ∧
    (∃ db', (engine18 b).exec 100 (link 1 2) db = .ok db' ∧ LinkCountIsRight articleCount article labels db' ∧
      (∃ db'', (engine18 b).exec 100 (unlink 1 2) db' = .ok db'' ∧ LinkCountIsRight articleCount article labels db'') ∧
      ∃ db'', (engine18 b).exec 100 (relink 1 1) db' = .ok db'' ∧ LinkCountIsRight articleCount article labels db'') ∧
    ∃ db', (engine18 b).exec 100 (link 3 1) db = .ok db' ∧ ¬ LinkCountIsRight articleCount article labels db' ∧
      (db'.rows "label").map (fun r => r "article_count") = [.int 0, .int 0] := by
  have h2 : ∀ {x : Except DbErr Db} {P : Db → Prop} {y z : Db → Except DbErr Db} {Q : Db → Prop} [DecidablePred P] [DecidablePred Q], (match x with
      | .ok db' => decide (P db') && (match y db' with | .ok db'' => decide (Q db'') | .error _ => false) && (match z db' with | .ok db'' => decide (Q db'') | .error _ => false)
      | .error _ => false) = true → ∃ db', x = .ok db' ∧ P db' ∧ (∃ db'', y db' = .ok db'' ∧ Q db'') ∧ ∃ db'', z db' = .ok db'' ∧ Q db'' := by
    intro x P y z Q _ _ h
    match x, h with
    | .ok db', h =>
      simp only [Bool.and_eq_true, decide_eq_true_eq] at h
      refine ⟨db', rfl, h.1.1, ok_of ?_, ok_of ?_⟩
      · exact h.1.2
      · exact h.2
  cases b with
  | mysql => exact absurd rfl hb
  | sqlite => exact ⟨rfl, by decide +kernel, h2 (by decide +kernel), ok_of (by decide +kernel)⟩
  | postgresql => exact ⟨rfl, by decide +kernel, h2 (by decide +kernel), ok_of (by decide +kernel)⟩

/-- A SumField over the same relation. -/
def sizeSum : AnyAgg := { articleCount with agg := .sum "size" }

/-- The triggers of Django 1.8 for it. -/
def sumTriggers18 : List PyTrigger := match sizeSum.triggers (1, 8) with | .ok trs => trs | .error _ => []

def sumEngine18 (b : Backend) : Engine := ⟨b, ((TriggerSet.append b [] sumTriggers18).map fun p => p.2.compile p.1), fun _ => 0⟩

/-- Labels 1 and 2; article 1 of size 5 with label 2, article 2 of size 3 with label 1. -/
def sumDb : Db :=
  ⟨fun t => if t = "label" then [row [("id", .int 1), ("article_count", .int 3)], row [("id", .int 2), ("article_count", .int 5)]]
    else if t = "article" then [row [("id", .int 1), ("size", .int 5)], row [("id", .int 2), ("size", .int 3)]]
    else if t = "article_labels" then [row [("article_id", .int 1), ("label_id", .int 2)], row [("article_id", .int 2), ("label_id", .int 1)]] else [], [], 0⟩

/-- **C60 is violated** in Django 1.8 for SumFields too: what is added and subtracted is not the size of the article but the *sum of the label* that has, by
chance, the key of the article. -/
theorem C60_violated_18_sum (b : Backend) (hb : b ≠ .mysql) : sizeSum.triggers (1, 8) = .ok sumTriggers18 ∧ LinkSumIsRight sizeSum article labels "size" sumDb ∧
    (∃ db', (sumEngine18 b).exec 100 (link 1 1) sumDb = .ok db' ∧ ¬ LinkSumIsRight sizeSum article labels "size" db' ∧
      (db'.rows "label").map (fun r => r "article_count") = [.int 6, .int 5]) ∧
    ∃ db', (sumEngine18 b).exec 100 (unlink 1 2) sumDb = .ok db' ∧ ¬ LinkSumIsRight sizeSum article labels "size" db' ∧
      (db'.rows "label").map (fun r => r "article_count") = [.int 3, .int 2] := by
  cases b with
  | mysql => exact absurd rfl hb
  | sqlite => exact ⟨rfl, by decide +kernel, ok_of (by decide +kernel), ok_of (by decide +kernel)⟩
  | postgresql => exact ⟨rfl, by decide +kernel, ok_of (by decide +kernel), ok_of (by decide +kernel)⟩

/-- The theorems apply: a project with a count over a ForeignKey, and one with a count over a many-to-many relation. -/
example : since19 (1, 9) = true ∧ since19 (1, 11) = true ∧ since19 (2, 0) = true ∧ since19 (1, 8) = false ∧ articleCount.manager.isM2M = true ∧
    articleCount.triggers (2, 0) = .error .attributeError ∧ sizeSum.triggers (1, 11) = .error .attributeError ∧ (sizeSum.triggers (1, 8)).isOk = true ∧
    ({ articleCount with manager := .forwardM2M labels } : AnyAgg).triggers (1, 8) = .error .attributeError ∧
    resolves Demo.postCount.related (Demo.postCount.filter ++ Demo.postCount.exclude) = true := by
  refine ⟨rfl, rfl, rfl, rfl, rfl, rfl, rfl, rfl, rfl, rfl⟩

end Labels

end Denorm
