import Verif.Lemmas.Visits
import Verif.Spec.Acyclic
/-!
# Which markers a save creates
-/
namespace Denorm

/-! ## What the triggers of a declaration do on an UPDATE -/

/-- The markers a trigger action inserts. -/
def Action.marks (a : Action) (ch : Change) (db : Db) : List Mark :=
  match a with
  | .markValues ct s c _ => [⟨ct, ch.side s c⟩]
  | .markSelect ct sel t k s c _ => selectMarks ct sel (db.rows t) k (ch.side s c)
  | .update _ => []

/-- The markers that updating row `o` of table `t` can create through dependency `d`. -/
def Dep.marks (d : Dep) (db : Db) (t : TableName) (o : Row) (m : Mark) : Prop :=
  match d.rel with
  | .forward f => t = d.other.table ∧ ∃ x ∈ db.rows d.this.pkTable, Val.sqlEq (x f.column) (o d.other.pk) = true ∧ m = ⟨d.this.ct, x d.this.pk⟩
  | .backward f => t = d.other.table ∧ (m = ⟨d.this.ct, o f.column⟩ ∨
      ∃ o' ∈ db.rows d.other.table, Val.sqlEq (o' d.other.pk) (o d.other.pk) = true ∧ m = ⟨d.this.ct, o' f.column⟩)
  | .forwardM2M (.m2m f) => (t = f.through ∧ m = ⟨d.this.ct, o f.colName⟩) ∨
      (t = d.other.table ∧ ∃ l ∈ db.rows f.through, Val.sqlEq (l f.revName) (o d.other.pk) = true ∧ m = ⟨d.this.ct, l f.colName⟩)
  | .backwardM2M (.m2m f) => (t = f.through ∧ m = ⟨d.this.ct, o f.revName⟩) ∨
      (t = d.other.table ∧ ∃ l ∈ db.rows f.through, Val.sqlEq (l f.colName) (o d.other.pk) = true ∧ m = ⟨d.this.ct, l f.revName⟩)
  | .forwardM2M (.generic g) => t = g.remoteTable ∧ m = ⟨d.this.ct, o g.objectIdField⟩
  | .backwardM2M (.generic g) => t = g.remoteTable ∧ m = ⟨d.this.ct, o g.remotePk⟩

/-- The rows `x` of the declaring model that updating row `o` of table `t` can make triggers update through dependency `d` (of a
CacheKeyField). -/
def Dep.reaches (d : Dep) (db : Db) (t : TableName) (o x : Row) : Prop :=
  match d.rel with
  | .forward f => t = d.other.table ∧ Val.sqlEq (x f.column) (o d.other.pk) = true
  | .backward f => t = d.other.table ∧ Val.sqlEq (x d.this.pk) (o f.column) = true
  | .forwardM2M (.m2m f) => (t = f.through ∧ Val.sqlEq (x d.this.pk) (o f.colName) = true) ∨
      (t = d.other.table ∧ ∃ l ∈ db.rows f.through, Val.sqlEq (l f.revName) (o d.other.pk) = true ∧ Val.sqlEq (x d.this.pk) (l f.colName) = true)
  | .backwardM2M (.m2m f) => (t = f.through ∧ Val.sqlEq (x d.this.pk) (o f.revName) = true) ∨
      (t = d.other.table ∧ ∃ l ∈ db.rows f.through, Val.sqlEq (l f.colName) (o d.other.pk) = true ∧ Val.sqlEq (x d.this.pk) (l f.revName) = true)
  | .forwardM2M (.generic g) => t = g.remoteTable ∧ Val.sqlEq (x d.this.pk) (o g.objectIdField) = true
  | .backwardM2M (.generic g) => t = g.remoteTable ∧ Val.sqlEq (x d.this.pk) (o g.remotePk) = true

/-- A generic dependency's triggers carry its content type. -/
def Dep.ctOf (d : Dep) (g : PyTrigger) : Prop :=
  ∀ gr, d.rel = .forwardM2M (.generic gr) → g.contentTypeField = some (gr.ctFieldName ++ "_id") ∧ g.contentType = d.this.ct

theorem dep_marks_alike {d : Dep} {g : PyTrigger} (hg : g ∈ d.callbackTriggers) (he : g.event = .update) {a : Action} (ha : a ∈ g.actions)
    {ch : Change} {db : Db} {m : Mark} (hm : m ∈ a.marks ch db) : (∃ s, d.marks db g.table (ch.side s) m) ∧ d.ctOf g := by
  rcases d with ⟨this, other, rel, skip⟩
  rcases rel with f | f | (f | gr) | (f | gr) <;>
    simp only [Dep.callbackTriggers, callbackM2MTriggers, M2MLike.subject, m2mColumns, List.mem_cons, List.not_mem_nil, or_false,
      List.cons_append, List.nil_append, if_true, if_false, Bool.false_eq_true, List.append_nil] at hg
  · rcases hg with rfl | rfl | rfl
    · simp only [mkTrigger, List.mem_singleton] at ha
      subst ha
      obtain ⟨x, h1, h2, h3⟩ := mem_selectMarks.1 hm
      exact ⟨⟨.new, rfl, x, h1, h2, h3⟩, by simp [Dep.ctOf]⟩
    · simp [mkTrigger] at he
    · simp [mkTrigger] at he
  · rcases hg with rfl | rfl | rfl
    · simp only [mkTrigger, List.mem_cons, List.not_mem_nil, or_false] at ha
      rcases ha with rfl | rfl
      · obtain ⟨x, h1, h2, h3⟩ := mem_selectMarks.1 hm
        exact ⟨⟨.new, rfl, .inr ⟨x, h1, h2, h3⟩⟩, by simp [Dep.ctOf]⟩
      · simp only [Action.marks, List.mem_singleton] at hm
        exact ⟨⟨.old, rfl, .inl hm⟩, by simp [Dep.ctOf]⟩
    · simp [mkTrigger] at he
    · simp [mkTrigger] at he
  · rcases hg with rfl | rfl | rfl | rfl
    · simp only [mkTrigger, List.mem_cons, List.not_mem_nil, or_false] at ha
      rcases ha with rfl | rfl <;> simp only [Action.marks, List.mem_singleton] at hm
      · exact ⟨⟨.new, .inl ⟨rfl, hm⟩⟩, by simp [Dep.ctOf]⟩
      · exact ⟨⟨.old, .inl ⟨rfl, hm⟩⟩, by simp [Dep.ctOf]⟩
    · simp [mkTrigger] at he
    · simp [mkTrigger] at he
    · simp only [mkTrigger, List.mem_singleton] at ha
      subst ha
      obtain ⟨x, h1, h2, h3⟩ := mem_selectMarks.1 hm
      exact ⟨⟨.new, .inr ⟨rfl, x, h1, h2, h3⟩⟩, by simp [Dep.ctOf]⟩
  · rcases hg with rfl | rfl | rfl
    · simp only [mkTrigger, List.mem_cons, List.not_mem_nil, or_false] at ha
      have hct : Dep.ctOf ⟨this, other, .forwardM2M (.generic gr), skip⟩ (mkTrigger (.generic gr) .update
          [.markValues this.ct .new gr.objectIdField true, .markValues this.ct .old gr.objectIdField true] this.ct skip) := by
        intro gr' h
        simp only [Rel.forwardM2M.injEq, M2MLike.generic.injEq] at h
        subst h
        exact ⟨rfl, rfl⟩
      rcases ha with rfl | rfl <;> simp only [Action.marks, List.mem_singleton] at hm
      · exact ⟨⟨.new, rfl, hm⟩, hct⟩
      · exact ⟨⟨.old, rfl, hm⟩, hct⟩
    · simp [mkTrigger] at he
    · simp [mkTrigger] at he
  · rcases hg with rfl | rfl | rfl | rfl
    · simp only [mkTrigger, List.mem_cons, List.not_mem_nil, or_false] at ha
      rcases ha with rfl | rfl <;> simp only [Action.marks, List.mem_singleton] at hm
      · exact ⟨⟨.new, .inl ⟨rfl, hm⟩⟩, by simp [Dep.ctOf]⟩
      · exact ⟨⟨.old, .inl ⟨rfl, hm⟩⟩, by simp [Dep.ctOf]⟩
    · simp [mkTrigger] at he
    · simp [mkTrigger] at he
    · simp only [mkTrigger, List.mem_singleton] at ha
      subst ha
      obtain ⟨x, h1, h2, h3⟩ := mem_selectMarks.1 hm
      exact ⟨⟨.new, .inr ⟨rfl, x, h1, h2, h3⟩⟩, by simp [Dep.ctOf]⟩
  · rcases hg with rfl | rfl | rfl
    · simp only [mkTrigger, List.mem_cons, List.not_mem_nil, or_false] at ha
      rcases ha with rfl | rfl <;> simp only [Action.marks, List.mem_singleton] at hm
      · exact ⟨⟨.new, rfl, hm⟩, by simp [Dep.ctOf]⟩
      · exact ⟨⟨.old, rfl, hm⟩, by simp [Dep.ctOf]⟩
    · simp [mkTrigger] at he
    · simp [mkTrigger] at he

theorem dep_reaches {d : Dep} {f : Col} {g : PyTrigger} (hg : g ∈ d.cacheKeyTriggers f) (he : g.event = .update) {u : UpdAction}
    (ha : Action.update u ∈ g.actions) {ch : Change} {db : Db} {x : Row} (hx : u.where_ ch db x = true) :
    (∃ s, d.reaches db g.table (ch.side s) x) ∧ d.ctOf g := by
  rcases d with ⟨this, other, rel, skip⟩
  rcases rel with fk | fk | (fk | gr) | (fk | gr) <;>
    simp only [Dep.cacheKeyTriggers, cacheKeyM2MTriggers, M2MLike.subject, m2mColumns, List.mem_cons, List.not_mem_nil, or_false,
      List.cons_append, List.nil_append, if_true, if_false, Bool.false_eq_true, List.append_nil] at hg
  · rcases hg with rfl | rfl | rfl
    · simp only [mkTrigger, randomUpdate, List.mem_singleton, Action.update.injEq] at ha
      subst ha
      exact ⟨⟨.new, rfl, by simpa [UpdAction.where_, Key.matches] using hx⟩, by simp [Dep.ctOf]⟩
    · simp [mkTrigger] at he
    · simp [mkTrigger] at he
  · rcases hg with rfl | rfl | rfl
    · simp only [mkTrigger, randomUpdate, List.mem_cons, List.not_mem_nil, or_false, Action.update.injEq] at ha
      rcases ha with rfl | rfl
      · exact ⟨⟨.new, rfl, by simpa [UpdAction.where_, Key.matches] using hx⟩, by simp [Dep.ctOf]⟩
      · exact ⟨⟨.old, rfl, by simpa [UpdAction.where_, Key.matches] using hx⟩, by simp [Dep.ctOf]⟩
    · simp [mkTrigger] at he
    · simp [mkTrigger] at he
  · rcases hg with rfl | rfl | rfl | rfl
    · simp only [mkTrigger, randomUpdate, List.mem_cons, List.not_mem_nil, or_false, Action.update.injEq] at ha
      rcases ha with rfl | rfl
      · exact ⟨⟨.new, .inl ⟨rfl, by simpa [UpdAction.where_, Key.matches] using hx⟩⟩, by simp [Dep.ctOf]⟩
      · exact ⟨⟨.old, .inl ⟨rfl, by simpa [UpdAction.where_, Key.matches] using hx⟩⟩, by simp [Dep.ctOf]⟩
    · simp [mkTrigger] at he
    · simp [mkTrigger] at he
    · simp only [mkTrigger, randomUpdate, List.mem_singleton, Action.update.injEq] at ha
      subst ha
      simp only [UpdAction.where_, Key.matches, List.all_nil, Bool.and_true, List.any_eq_true, Bool.and_eq_true] at hx
      obtain ⟨l, h1, h2, h3⟩ := hx
      exact ⟨⟨.new, .inr ⟨rfl, l, h1, h2, h3⟩⟩, by simp [Dep.ctOf]⟩
  · rcases hg with rfl | rfl | rfl
    · have hct : Dep.ctOf ⟨this, other, .forwardM2M (.generic gr), skip⟩ (mkTrigger (.generic gr) .update
          [randomUpdate this f (.eq this.pk .new gr.objectIdField), randomUpdate this f (.eq this.pk .old gr.objectIdField)] this.ct skip) := by
        intro gr' h
        simp only [Rel.forwardM2M.injEq, M2MLike.generic.injEq] at h
        subst h
        exact ⟨rfl, rfl⟩
      simp only [mkTrigger, randomUpdate, List.mem_cons, List.not_mem_nil, or_false, Action.update.injEq] at ha
      rcases ha with rfl | rfl
      · exact ⟨⟨.new, rfl, by simpa [UpdAction.where_, Key.matches] using hx⟩, hct⟩
      · exact ⟨⟨.old, rfl, by simpa [UpdAction.where_, Key.matches] using hx⟩, hct⟩
    · simp [mkTrigger] at he
    · simp [mkTrigger] at he
  · rcases hg with rfl | rfl | rfl | rfl
    · simp only [mkTrigger, randomUpdate, List.mem_cons, List.not_mem_nil, or_false, Action.update.injEq] at ha
      rcases ha with rfl | rfl
      · exact ⟨⟨.new, .inl ⟨rfl, by simpa [UpdAction.where_, Key.matches] using hx⟩⟩, by simp [Dep.ctOf]⟩
      · exact ⟨⟨.old, .inl ⟨rfl, by simpa [UpdAction.where_, Key.matches] using hx⟩⟩, by simp [Dep.ctOf]⟩
    · simp [mkTrigger] at he
    · simp [mkTrigger] at he
    · simp only [mkTrigger, randomUpdate, List.mem_singleton, Action.update.injEq] at ha
      subst ha
      simp only [UpdAction.where_, Key.matches, List.all_nil, Bool.and_true, List.any_eq_true, Bool.and_eq_true] at hx
      obtain ⟨l, h1, h2, h3⟩ := hx
      exact ⟨⟨.new, .inr ⟨rfl, l, h1, h2, h3⟩⟩, by simp [Dep.ctOf]⟩
  · rcases hg with rfl | rfl | rfl
    · simp only [mkTrigger, randomUpdate, List.mem_cons, List.not_mem_nil, or_false, Action.update.injEq] at ha
      rcases ha with rfl | rfl
      · exact ⟨⟨.new, rfl, by simpa [UpdAction.where_, Key.matches] using hx⟩, by simp [Dep.ctOf]⟩
      · exact ⟨⟨.old, rfl, by simpa [UpdAction.where_, Key.matches] using hx⟩, by simp [Dep.ctOf]⟩
    · simp [mkTrigger] at he
    · simp [mkTrigger] at he

/-- A dependency's row condition for a generic relation, where the backend checks it. -/
def Dep.ctHolds (b : Backend) (d : Dep) (o : Row) : Prop :=
  ∀ gr, d.rel = .forwardM2M (.generic gr) → b ≠ .mysql → hasCt (gr.ctFieldName ++ "_id") d.this.ct o = true

/-- The markers that updating row `o` of table `t` can create through a declaration. -/
def Denorm.marks (b : Backend) (dn : Denorm) (db : Db) (t : TableName) (o : Row) (m : Mark) : Prop :=
  match dn with
  | .callback _ md _ _ deps => (t = md.table ∧ m = ⟨md.ct, o md.pk⟩) ∨ ∃ d ∈ deps, d.marks db t o m ∧ d.ctHolds b o
  | _ => False

/-- The rows `x` of the declaring model that triggers of a declaration can update when row `o` of table `t` is updated. -/
def Denorm.reaches (b : Backend) (dn : Denorm) (db : Db) (t : TableName) (o x : Row) : Prop :=
  match dn with
  | .callback .. => False
  | .cacheKey _ _ deps => ∃ d ∈ deps, d.reaches db t o x ∧ d.ctHolds b o
  | .aggregate a => t = a.related.table ∧ Val.sqlEq (x a.model.pk) (o a.fk.attname) = true

/-- The trigger fires only for rows of its content type, before and after the change alike. -/
theorem ctHolds_of_fires {b : Backend} {d : Dep} {g : PyTrigger} {tr : DbTrigger} {ch : Change} (hct : d.ctOf g) (he : tr.event = .update)
    (h1 : b ≠ .mysql → tr.ctField = g.contentTypeField ∧ (g.contentTypeField ≠ none → tr.ct = g.contentType)) (hf : tr.fires b ch = true)
    (hsame : ∀ gr, d.rel = .forwardM2M (.generic gr) → ch.old (gr.ctFieldName ++ "_id") = ch.new (gr.ctFieldName ++ "_id")) (s : Side) :
    d.ctHolds b (ch.side s) := by
  intro gr hrel hb
  obtain ⟨h2, h3⟩ := hct gr hrel
  obtain ⟨h4, h5⟩ := h1 hb
  rw [h2] at h4 h5
  have h6 := h5 (by simp)
  have hs := hsame gr hrel
  have hold : hasCt (gr.ctFieldName ++ "_id") d.this.ct ch.old = hasCt (gr.ctFieldName ++ "_id") d.this.ct ch.new := by simp [hasCt, hs]
  have : hasCt (gr.ctFieldName ++ "_id") d.this.ct ch.new = true := by
    simp only [DbTrigger.fires, he, h4, h6, h3] at hf
    cases b with
    | mysql => exact absurd rfl hb
    | sqlite => simp only [hold, Bool.and_eq_true, Bool.or_self] at hf; exact hf.2
    | postgresql =>
      simp only [hold, Bool.or_eq_true, Bool.and_eq_true] at hf
      rcases hf with hf | hf
      · exact hf.2
      · exact hf
  cases s
  · exact this
  · exact hold.trans this

section
variable {A : App} {D : List Denorm}

/-- An action of a trigger that fires for an update belongs to a declaration. -/
theorem fired_origin (hP : Project A D) {tr : DbTrigger} (htr : tr ∈ A.engine.triggers) (he : tr.event = .update) {a : Action}
    (ha : a ∈ tr.actions) : ∃ dn ∈ D, ∃ g ∈ dn.triggers, a ∈ g.actions ∧ g.table = tr.table ∧ g.event = .update ∧
      (A.engine.backend ≠ .mysql → tr.ctField = g.contentTypeField ∧ (g.contentTypeField ≠ none → tr.ct = g.contentType)) := by
  rw [hP.installed] at htr
  obtain ⟨g, hg, h1, h2⟩ := installed_origin htr ha
  obtain ⟨g', hg', h3, h4, h5, h6, h7, h8⟩ := installed_head htr
  obtain ⟨a1, a2, _, a4⟩ := hP.agree g hg g' hg' (h1.trans h3.symm)
  obtain ⟨dn, hdn, hgd⟩ := List.mem_flatMap.1 hg
  refine ⟨dn, hdn, g, hgd, h2, a1.trans h4.symm, a2.trans (h5.symm.trans he), fun hb => ?_⟩
  obtain ⟨b1, b2⟩ := a4 hb
  exact ⟨h7.trans b1.symm, fun hn => h8.trans (b2 hn).symm⟩

theorem side_same {K : TableName → Col → Prop} {ch : Change} (h : ∀ c, ¬ K ch.table c → ch.old c = ch.new c) {c : Col} (hc : ¬ K ch.table c)
    (s s' : Side) : ch.side s c = ch.side s' c := by
  cases s <;> cases s' <;> simp [Change.side, h c hc]

theorem fired_marks (hP : Project A D) {tr : DbTrigger} (htr : tr ∈ A.engine.triggers) {ch : Change} (ht : tr.table = ch.table)
    (he : tr.event = .update) (hf : tr.fires A.engine.backend ch = true)
    (hsame : ∀ c, ¬ Touched A ch.table c → ch.old c = ch.new c) {a : Action} (ha : a ∈ tr.actions) {db : Db} {m : Mark}
    (hm : m ∈ a.marks ch db) : ∃ dn ∈ D, ∃ s, dn.marks A.engine.backend db ch.table (ch.side s) m := by
  obtain ⟨dn, hdn, g, hg, h1, h2, h3, h4⟩ := fired_origin hP htr he ha
  refine ⟨dn, hdn, ?_⟩
  cases dn with
  | callback bu md f sk ds =>
    simp only [Denorm.triggers, List.mem_append] at hg
    rcases hg with hg | hg
    · cases bu with
      | true => simp at hg
      | false =>
        simp only [Bool.false_eq_true, if_false, selfTriggers, List.mem_cons, List.not_mem_nil, or_false] at hg
        rcases hg with rfl | rfl
        · simp only [mkTrigger, List.mem_singleton] at h1
          subst h1
          simp only [Action.marks, List.mem_singleton] at hm
          exact ⟨.new, .inl ⟨ht.symm.trans h2.symm, hm⟩⟩
        · simp [mkTrigger] at h3
    · obtain ⟨d, hd, hg⟩ := List.mem_flatMap.1 hg
      obtain ⟨⟨s, hs⟩, hct⟩ := dep_marks_alike hg h3 h1 hm
      rw [h2, ht] at hs
      refine ⟨s, .inr ⟨d, hd, hs, ctHolds_of_fires hct he h4 hf ?_ s⟩⟩
      intro gr hrel
      have htab : ch.table = gr.remoteTable := by simp only [Dep.marks, hrel] at hs; exact hs.1
      refine hsame _ ?_
      rw [htab]
      exact (hP.fixed _ hdn d hd).1 (gr.remoteTable, gr.ctFieldName ++ "_id") (by simp [Dep.looks, hrel])
  | cacheKey md f ds =>
    simp only [Denorm.triggers, List.mem_flatMap] at hg
    obtain ⟨d, hd, hg⟩ := hg
    cases a with
    | update u => simp [Action.marks] at hm
    | markValues ct s c q =>
      exfalso
      rcases d with ⟨this, other, rel, skip⟩
      rcases rel with f | f | (f | gr) | (f | gr) <;>
        simp only [Dep.cacheKeyTriggers, cacheKeyM2MTriggers, List.mem_cons, List.not_mem_nil, or_false,
          List.cons_append, List.nil_append, List.append_nil] at hg <;>
        rcases hg with rfl | rfl | rfl | rfl <;> simp [mkTrigger_actions, randomUpdate] at h1
    | markSelect ct sel t k s c q =>
      exfalso
      rcases d with ⟨this, other, rel, skip⟩
      rcases rel with f | f | (f | gr) | (f | gr) <;>
        simp only [Dep.cacheKeyTriggers, cacheKeyM2MTriggers, List.mem_cons, List.not_mem_nil, or_false,
          List.cons_append, List.nil_append, List.append_nil] at hg <;>
        rcases hg with rfl | rfl | rfl | rfl <;> simp [mkTrigger_actions, randomUpdate] at h1
  | aggregate ag =>
    exfalso
    simp only [Denorm.triggers, AggDenorm.triggers, List.mem_cons, List.not_mem_nil, or_false] at hg
    rcases hg with rfl | rfl | rfl <;>
      simp only [mkTrigger_actions, List.mem_cons, List.not_mem_nil, or_false, AggDenorm.increment, AggDenorm.decrement] at h1
    · rcases h1 with rfl | rfl <;> simp [Action.marks] at hm
    · subst h1; simp [Action.marks] at hm
    · subst h1; simp [Action.marks] at hm

theorem fired_reaches (hP : Project A D) {tr : DbTrigger} (htr : tr ∈ A.engine.triggers) {ch : Change} (ht : tr.table = ch.table)
    (he : tr.event = .update) (hf : tr.fires A.engine.backend ch = true)
    (hsame : ∀ c, ¬ Touched A ch.table c → ch.old c = ch.new c) {u : UpdAction} (ha : Action.update u ∈ tr.actions) {db : Db} {x : Row}
    (hx : u.where_ ch db x = true) :
    ∃ dn ∈ D, u.table = dn.model.table ∧ ∃ s, dn.reaches A.engine.backend db ch.table (ch.side s) x := by
  obtain ⟨dn, hdn, g, hg, h1, h2, h3, h4⟩ := fired_origin hP htr he ha
  refine ⟨dn, hdn, ?_⟩
  cases dn with
  | callback bu md f sk ds =>
    exfalso
    simp only [Denorm.triggers, List.mem_append] at hg
    rcases hg with hg | hg
    · cases bu with
      | true => simp at hg
      | false =>
        simp only [Bool.false_eq_true, if_false, selfTriggers, List.mem_cons, List.not_mem_nil, or_false] at hg
        rcases hg with rfl | rfl <;> simp [mkTrigger_actions] at h1
    · obtain ⟨d, _, hg⟩ := List.mem_flatMap.1 hg
      exact callback_no_update hg h1
  | cacheKey md f ds =>
    simp only [Denorm.triggers, List.mem_flatMap] at hg
    obtain ⟨d, hd, hg⟩ := hg
    have hthis := hP.this _ hdn d hd
    refine ⟨by rw [(cacheKey_update hg h1).1, hthis], ?_⟩
    obtain ⟨⟨s, hs⟩, hct⟩ := dep_reaches hg h3 h1 hx
    rw [h2, ht] at hs
    refine ⟨s, d, hd, hs, ctHolds_of_fires hct he h4 hf ?_ s⟩
    intro gr hrel
    have htab : ch.table = gr.remoteTable := by simp only [Dep.reaches, hrel] at hs; exact hs.1
    refine hsame _ ?_
    rw [htab]
    exact (hP.fixed _ hdn d hd).1 (gr.remoteTable, gr.ctFieldName ++ "_id") (by simp [Dep.looks, hrel])
  | aggregate ag =>
    have htab : g.table = ag.related.table := by
      simp only [Denorm.triggers, AggDenorm.triggers, List.mem_cons, List.not_mem_nil, or_false] at hg
      rcases hg with rfl | rfl | rfl <;> rfl
    have hcase := aggregate_update hg h1
    simp only [AggDenorm.increment, AggDenorm.decrement, Action.update.injEq] at hcase
    have ht' : ch.table = ag.related.table := by rw [← ht, ← h2, htab]
    rcases hcase with rfl | rfl
    · simp only [UpdAction.where_, Key.matches, Bool.and_eq_true] at hx
      exact ⟨rfl, .new, ht', hx.1⟩
    · simp only [UpdAction.where_, Key.matches, Bool.and_eq_true] at hx
      exact ⟨rfl, .old, ht', hx.1⟩

end
end Denorm
