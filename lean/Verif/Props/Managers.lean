import Verif.Code.Managers
import Verif.Props.Rebuild
import Verif.Props.Save
/-!
# Managers that leave out rows (C57)
-/
namespace Denorm

section
variable {A : App} {O : Managers} {D : List Denorm} {mn fn : Option String} {db : Db}

/-- The managers of the models that have a CountField or SumField return every row. -/
def Managers.ShowsCounted (O : Managers) (A : App) : Prop :=
  ∀ om ∈ A.models, (∃ f ∈ om.saved, f.kind.isAggregate = true) → ∀ r, O om.model.table r = true

theorem preSaveSeeing_same {m : Model} {f : SaveField} (h : f.kind.isAggregate = true → ∀ r, O m.table r = true) (add : Bool) (mem : Row) :
    f.preSaveSeeing O A m db add mem = f.preSave A m db add mem := by
  unfold SaveField.preSaveSeeing
  split
  · rename_i hk
    have : (db.rows m.table).filter (O m.table) = db.rows m.table := List.filter_eq_self.2 fun r _ => h (by rw [hk]; rfl) r
    rw [this]
    simp only [SaveField.preSave, hk]
    split
    · rfl
    · cases (db.rows m.table).find? (fun r => Val.sqlEq (r m.pk) (mem m.pk)) <;> rfl
  · rfl

theorem preSaveAllSeeing_same {m : Model} (add : Bool) : ∀ {fs : List SaveField} (mem : Row),
    (∀ f ∈ fs, f.kind.isAggregate = true → ∀ r, O m.table r = true) →
    preSaveAllSeeing O A m db add fs mem = preSaveAll A m db add fs mem
  | [], _, _ => rfl
  | f :: fs, mem, h => by
    simp only [preSaveAllSeeing, preSaveAll, preSaveSeeing_same (h f (List.mem_cons_self ..))]
    cases f.preSave A m db add mem with
    | error e => rfl
    | ok v => exact preSaveAllSeeing_same add _ fun f hf => h f (List.mem_cons_of_mem _ hf)

/-- C57: save() of an instance of such a model is what it is with managers that return every row. -/
theorem C57_save_partial (hO : O.ShowsCounted A) {om : OrmModel} (hom : om ∈ A.models) (mem : Row) (db : Db) :
    A.saveSeeing O om mem db = A.save om mem db := by
  have h : ∀ f ∈ om.saved, f.kind.isAggregate = true → ∀ r, O om.model.table r = true := fun f hf hk => hO om hom ⟨f, hf, hk⟩
  have hs : ∀ add mem, preSaveAllSeeing O A om.model db add om.saved mem = preSaveAll A om.model db add om.saved mem :=
    fun add mem => preSaveAllSeeing_same add mem h
  simp only [App.saveSeeing, App.save, hs]
  rfl

theorem flushOneSeeing_same (hO : O.ShowsCounted A) (m : Mark) (db : Db) : A.flushOneSeeing O m db = A.flushOne m db := by
  simp only [App.flushOneSeeing, App.flushOne, App.saveObject]
  cases hc : A.contentObject db m with
  | error e => rfl
  | ok x =>
    cases x with
    | none => rfl
    | some p =>
      obtain ⟨om, r⟩ := p
      have hom : om ∈ A.models := by
        simp only [App.contentObject] at hc
        cases hf : A.models.find? (fun om => om.model.ct == m.ct) with
        | none => rw [hf] at hc; simp at hc
        | some om' =>
          rw [hf] at hc
          have := List.mem_of_find?_eq_some hf
          simp only at hc
          split at hc
          · simp at hc
          · simp only [Except.ok.injEq, Option.some.injEq, Prod.mk.injEq] at hc
            rw [← hc.1]; exact this
      simp only [C57_save_partial hO hom]
      cases A.save om r db <;> rfl

theorem flushListSeeing_same (hO : O.ShowsCounted A) : ∀ (ms : List Mark) (db : Db), A.flushListSeeing O ms db = A.flushList ms db
  | [], _ => rfl
  | m :: ms, db => by
    simp only [App.flushListSeeing, App.flushList, flushOneSeeing_same hO]
    cases A.flushOne m db with
    | error e => rfl
    | ok db1 => exact flushListSeeing_same hO ms db1

/-- C57, if the managers of the models that have a CountField or SumField return every row: flush() is what it is with managers that return every row,
whatever the other managers leave out. -/
theorem C57_flush_partial (hO : O.ShowsCounted A) : ∀ (n : Nat) (db : Db), A.flushSeeing O n db = A.flush n db
  | 0, db => by unfold App.flushSeeing App.flush; rfl
  | n + 1, db => by
    unfold App.flushSeeing App.flush
    rw [flushListSeeing_same hO, App.pass]
    cases A.flushList (A.snapshot db) db with
    | error e => rfl
    | ok db1 => simp only [C57_flush_partial hO n db1]

/-- C57, if the managers of the models asked for, and of those with a CountField or SumField, return every row: the same for rebuildall(). -/
theorem C57_rebuild_partial (hO : O.ShowsCounted A) (hD : ∀ dn ∈ D, Asked mn fn dn → ∀ r, O dn.model.table r = true) (n : Nat) (db : Db) :
    A.rebuildallSeeing O D mn fn n db = A.rebuildall D mn fn n db := by
  have : rebuildMarksSeeing O (rebuildModels D mn fn) db = rebuildMarks (rebuildModels D mn fn) db := by
    have h : ∀ ms : List Model, (∀ m ∈ ms, ∀ r, O m.table r = true) → rebuildMarksSeeing O ms db = rebuildMarks ms db := by
      intro ms hms
      unfold rebuildMarksSeeing rebuildMarks
      induction ms with
      | nil => rfl
      | cons m ms ih =>
        simp only [List.flatMap_cons]
        rw [ih fun m hm => hms m (List.mem_cons_of_mem _ hm), List.filter_eq_self.2 fun r _ => hms m (List.mem_cons_self ..) r]
    refine h _ fun m hm r => ?_
    obtain ⟨dn, hdn, hask, rfl⟩ := mem_rebuildModels.1 hm
    exact hD dn hdn hask r
  rw [App.rebuildallSeeing, App.rebuildall, this, C57_flush_partial hO]

/-- C57: what rebuildall() marks: exactly the rows that the managers return. -/
theorem C57_marks (n : Nat) : ∃ ms, A.rebuildallSeeing O D mn fn n db = A.flushSeeing O n { db with dirty := db.dirty ++ ms } ∧
    ∀ m, m ∈ ms ↔ ∃ dn ∈ D, Asked mn fn dn ∧ ∃ r ∈ db.rows dn.model.table, O dn.model.table r = true ∧ m = ⟨dn.model.ct, r dn.model.pk⟩ := by
  refine ⟨_, rfl, fun m => ?_⟩
  simp only [rebuildMarksSeeing, List.mem_flatMap, mem_rebuildModels, List.mem_map, List.mem_filter]
  constructor
  · rintro ⟨md, ⟨dn, h1, h2, rfl⟩, r, ⟨hr, ho⟩, rfl⟩
    exact ⟨dn, h1, h2, r, hr, ho, rfl⟩
  · rintro ⟨dn, h1, h2, r, hr, ho, rfl⟩
    exact ⟨dn.model, ⟨dn, h1, h2, rfl⟩, r, ⟨hr, ho⟩, rfl⟩

/-! ## Hidden rows with a CountField -/

theorem preSaveAllSeeing_hidden {m : Model} {k : Val} (hk : ∀ r ∈ db.rows m.table, r m.pk = k → O m.table r = false) :
    ∀ {fs : List SaveField} {mem : Row}, mem m.pk = k → (∀ f ∈ fs, f.col ≠ m.pk) → (∃ f ∈ fs, f.kind.isAggregate = true) →
      preSaveAllSeeing O A m db false fs mem = .error .indexError
  | [], _, _, _, h => by obtain ⟨f, hf, _⟩ := h; simp at hf
  | f :: fs, mem, hm, hp, h => by
    simp only [preSaveAllSeeing]
    by_cases ha : f.kind.isAggregate = true
    · have hkind : f.kind = .aggregate := by
        cases hk : f.kind <;> rw [hk] at ha <;> simp [Kind.isAggregate] at ha
      have hn : ((db.rows m.table).filter (O m.table)).find? (fun r => Val.sqlEq (r m.pk) (mem m.pk)) = none := by
        refine List.find?_eq_none.2 fun r hr he => ?_
        obtain ⟨hr, ho⟩ := List.mem_filter.1 hr
        have := hk r hr (by rw [← hm]; exact (Val.sqlEq_iff.1 he).1)
        rw [this] at ho
        simp at ho
      simp [SaveField.preSaveSeeing, hkind, hn]
    · cases hv : f.preSaveSeeing O A m db false mem with
      | error e =>
        have : e = .indexError := by
          unfold SaveField.preSaveSeeing at hv
          split at hv
          · rename_i hkind
            rw [hkind] at ha
            simp [Kind.isAggregate] at ha
          · rename_i hkind
            simp only [SaveField.preSave] at hv
            cases hk : f.kind <;> rw [hk] at hv hkind <;> simp at hv hkind
        subst this
        rfl
      | ok v =>
        have hne := hp f (List.mem_cons_self ..)
        refine preSaveAllSeeing_hidden hk ?_ (fun g hg => hp g (List.mem_cons_of_mem _ hg)) ?_
        · simp only [Row.set]; rw [if_neg (Ne.symm hne)]; exact hm
        · obtain ⟨g, hg, hga⟩ := h
          rcases List.mem_cons.1 hg with rfl | hg
          · exact absurd hga ha
          · exact ⟨g, hg, hga⟩

/-- **C57 is violated**, in every project: save() of any existing instance that the manager leaves out raises IndexError, if its model has a CountField
or SumField. -/
theorem C57_violated_save {om : OrmModel} (hpk : om.model.pk ∉ om.cols) (hagg : ∃ f ∈ om.saved, f.kind.isAggregate = true) {mem : Row}
    (hhid : ∀ r ∈ db.rows om.model.table, r om.model.pk = mem om.model.pk → O om.model.table r = false) :
    A.saveSeeing O om mem db = .error .indexError := by
  simp only [App.saveSeeing, preSaveAllSeeing_hidden hhid rfl (fun f hf e => hpk (List.mem_map.2 ⟨f, hf, e⟩)) hagg]

/-- **C57 is violated**, in every project: if flush() comes across the marker of such an instance first, it raises IndexError; and it does so every
time, so none of the markers is ever dealt with. -/
theorem C57_violated_flush {om : OrmModel} (hpk : om.model.pk ∉ om.cols) (hagg : ∃ f ∈ om.saved, f.kind.isAggregate = true) {m : Mark} {ms : List Mark}
    (hsnap : A.snapshot db = m :: ms) (hfind : A.models.find? (fun o => o.model.ct == m.ct) = some om) {r : Row} (hr : r ∈ db.rows om.model.table)
    (hrk : r om.model.pk = m.oid) (hn : m.oid ≠ .null)
    (hhid : ∀ r ∈ db.rows om.model.table, r om.model.pk = m.oid → O om.model.table r = false) (hd : db.dirty ≠ []) (n : Nat) :
    A.flushSeeing O (n + 1) db = .error .indexError := by
  have hone : A.flushOneSeeing O m db = .error .indexError := by
    simp only [App.flushOneSeeing, App.contentObject, hfind]
    cases hrow : (db.rows om.model.table).find? (isRowOf om.model m.oid) with
    | none => exact absurd (Val.sqlEq_iff.2 ⟨hrk, by rw [hrk]; exact hn⟩) (List.find?_eq_none.1 hrow r hr)
    | some r0 =>
      have hk := (find_again hrow).2
      simp only [C57_violated_save (A := A) hpk hagg (mem := r0) (fun r hr h => hhid r hr (h.trans hk))]
  unfold App.flushSeeing
  rw [if_neg hd, hsnap]
  simp only [App.flushListSeeing, hone]

end

/-! ## The hypotheses are met -/

namespace Demo
set_option maxRecDepth 100000

/-- Forums called "Z" are left out (forums have a CountField); posts called "q" are left out. -/
def noTrash : Managers := fun t r => !(t == "forum" && decide (r "title" = .text "Z"))
def noTrashPosts : Managers := fun t r => !(t == "post" && decide (r "title" = .text "q"))

/-- A manager of posts that leaves out rows does not disturb flush(). -/
example (b : Backend) (n : Nat) : (app b).flushSeeing noTrashPosts n staleDb = (app b).flush n staleDb :=
  C57_flush_partial (by
    intro om hom ⟨f, hf, hk⟩ r
    simp only [app, List.mem_cons, List.not_mem_nil, or_false] at hom
    rcases hom with rfl | rfl | rfl | rfl
    · simp [noTrashPosts, forumOrm, forum]
    all_goals
      exfalso
      revert hk
      revert f
      decide) n _

/-- The forum that is called "Z" now is marked; from then on flush() raises IndexError. -/
example (b : Backend) (n : Nat) : (app b).flushSeeing noTrash (n + 1) { staleDb with dirty := [⟨1, .int 1⟩, ⟨2, .int 2⟩] } = .error .indexError :=
  C57_violated_flush (om := forumOrm) (m := ⟨1, .int 1⟩) (ms := [⟨2, .int 2⟩]) (by decide) (by decide) (by cases b <;> decide) (by cases b <;> rfl)
    (r := frow 1 "Z" "xy" "t" 2) (by simp [staleDb, forumOrm, forum]) (by decide) (by decide) (by decide) (by decide) n

end Demo

namespace Chain
set_option maxRecDepth 100000

/-- Entries with the label "A" are left out. -/
def noA : Managers := fun t r => !(t == "entry" && decide (r "label" = .text "A"))

end Chain

set_option maxRecDepth 100000 in
/-- **C57 is violated** on every backend also for models without CountField: rebuildall() of everything returns, and the rows left out by the manager
are as out of date as before. -/
theorem C57_violated_rebuild (b : Backend) : ∃ (A : App) (O : Managers) (D : List Denorm) (om : OrmModel) (cb : Callback) (db db' : Db),
    A.engine.backend = b ∧ O.ShowsCounted A ∧ Flushable A D om cb db ∧ KeysUnique A db ∧ KeysOk cb db ∧ cb.denorm ∈ D ∧
    A.rebuildallSeeing O D none none 2 db = .ok (some db') ∧ ∃ r ∈ db'.rows cb.model.table, r cb.field ≠ cb.value db' r := by
  have h : ∃ db', (Chain.app b).rebuildallSeeing Chain.noA Chain.decls none none 2 { Chain.staleDb with dirty := [] } = .ok (some db') ∧
      ∃ r ∈ db'.rows "entry", r "label" ≠ Chain.label.value db' r := flush_of (by cases b <;> decide +kernel)
  obtain ⟨db', h1, h2⟩ := h
  refine ⟨Chain.app b, Chain.noA, Chain.decls, Chain.entryOrm, Chain.label, { Chain.staleDb with dirty := [] }, db', rfl, ?_,
    Chain.flushable_label b _ _, Chain.stale_unique b _, by unfold KeysOk; decide, by simp [Chain.decls], h1, h2⟩
  intro om hom ⟨f, hf, hk⟩
  simp only [Chain.app, List.mem_cons, List.not_mem_nil, or_false] at hom
  exfalso
  revert f
  rcases hom with rfl | rfl | rfl <;> decide

end Denorm
