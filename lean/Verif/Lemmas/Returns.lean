import Verif.Lemmas.NoError
import Verif.Lemmas.Finishes
import Verif.Lemmas.Session
import Verif.Spec.Returns
/-!
# flush() raises nothing, with aggregates and cache keys
-/
namespace Denorm

section
variable {A : App} {D : List Denorm}

/-- The markers that triggers insert are for models of the project. -/
theorem mark_cts (hE : Installed A.engine D) (hthis : ∀ dn ∈ D, ∀ d ∈ dn.deps, d.this = dn.model) {tr : DbTrigger}
    (htr : tr ∈ A.engine.triggers) {a : Action} (ha : a ∈ tr.actions) {ct : Nat} (hct : a.markCt = some ct) :
    ∃ dn ∈ D, dn.model.ct = ct := by
  rw [hE] at htr
  obtain ⟨g, hg, _, h2⟩ := installed_origin htr ha
  obtain ⟨dn, hdn, hgd⟩ := List.mem_flatMap.1 hg
  refine ⟨dn, hdn, ?_⟩
  cases dn with
  | callback bu md f sk ds =>
    simp only [Denorm.triggers, List.mem_append] at hgd
    rcases hgd with hgd | hgd
    · cases bu with
      | true => simp at hgd
      | false =>
        simp only [Bool.false_eq_true, if_false, selfTriggers, List.mem_cons, List.not_mem_nil, or_false] at hgd
        rcases hgd with rfl | rfl <;> simp only [mkTrigger_actions, List.mem_singleton] at h2 <;> subst h2 <;>
          simpa [Action.markCt, Denorm.model] using hct
    · obtain ⟨d, hd, hgd⟩ := List.mem_flatMap.1 hgd
      rw [callback_markCt hgd h2, hthis _ hdn d hd] at hct
      simpa using hct
  | cacheKey m f ds =>
    obtain ⟨d, hd, hgd⟩ := List.mem_flatMap.1 hgd
    exfalso
    rcases d with ⟨this, other, rel, skip⟩
    rcases rel with f | f | (f | gr) | (f | gr) <;>
      simp only [Dep.cacheKeyTriggers, cacheKeyM2MTriggers, randomUpdate, List.mem_cons, List.not_mem_nil, or_false,
        List.cons_append, List.nil_append, List.append_nil] at hgd <;>
      rcases hgd with rfl | rfl | rfl | rfl <;> simp only [mkTrigger_actions, List.mem_cons, List.not_mem_nil, or_false] at h2 <;>
      rcases h2 with rfl | rfl <;> simp [Action.markCt] at hct
  | aggregate a' =>
    exfalso
    simp only [Denorm.triggers, AggDenorm.triggers, List.mem_cons, List.not_mem_nil, or_false] at hgd
    rcases hgd with rfl | rfl | rfl <;> simp only [mkTrigger_actions, List.mem_cons, List.not_mem_nil, or_false] at h2 <;>
      rcases h2 with rfl | rfl <;> simp [Action.markCt, AggDenorm.increment, AggDenorm.decrement] at hct

theorem drain_cts {E : Engine} {C : Nat → Prop} (hE : ∀ tr ∈ E.triggers, ∀ a ∈ tr.actions, ∀ ct, a.markCt = some ct → C ct) :
    ∀ (n : Nat) (W : List Item) (db db' : Db), (∀ fr ch a, Item.act fr ch a ∈ W → ∀ ct, a.markCt = some ct → C ct) →
      E.drain n W db = .ok db' → ∀ m ∈ db'.dirty, m ∈ db.dirty ∨ C m.ct
  | n, [], db, db', _, h => by
    have : db = db' := by cases n <;> simpa [Engine.drain] using h
    subst this
    exact fun _ hm => .inl hm
  | 0, it :: W, db, db', _, h => by simp [Engine.drain] at h
  | n + 1, it :: W, db, db', hW, h => by
    simp only [Engine.drain] at h
    have hW' : ∀ fr ch a, Item.act fr ch a ∈ W → ∀ ct, a.markCt = some ct → C ct :=
      fun fr ch a ha => hW fr ch a (List.mem_cons_of_mem _ ha)
    cases it with
    | write fr t ops =>
      simp only [Engine.step] at h
      intro m hm
      have := drain_cts hE n _ _ db' (by
        intro fr' ch a ha
        rcases List.mem_append.1 ha with ha | ha
        · obtain ⟨ch', _, h3⟩ := List.mem_flatMap.1 ha
          obtain ⟨tr, htr, _, a', ha', e⟩ := mem_fired.1 h3
          simp only [Item.act.injEq] at e
          rw [e.2.2]
          exact hE tr htr a' ha'
        · exact hW' fr' ch a ha) h m hm
      rwa [(applyOps_withDirty t ops db db.dirty).2] at this
    | act fr ch a =>
      cases a with
      | markValues ct s c q =>
        simp only [Engine.step, List.nil_append] at h
        intro m hm
        rcases drain_cts hE n _ _ db' hW' h m hm with h1 | h1
        · rcases List.mem_append.1 h1 with h1 | h1
          · exact .inl h1
          · simp only [List.mem_singleton] at h1
            subst h1
            exact .inr (hW _ _ _ (List.mem_cons_self ..) _ rfl)
        · exact .inr h1
      | markSelect ct sel t k s c q =>
        simp only [Engine.step, List.nil_append] at h
        intro m hm
        rcases drain_cts hE n _ _ db' hW' h m hm with h1 | h1
        · rcases List.mem_append.1 h1 with h1 | h1
          · exact .inl h1
          · obtain ⟨r, _, _, rfl⟩ := mem_selectMarks.1 h1
            exact .inr (hW _ _ _ (List.mem_cons_self ..) _ rfl)
        · exact .inr h1
      | update u =>
        simp only [Engine.step] at h
        split at h
        · rename_i new db1 hs
          split at hs
          · simp at hs
          · simp only [Except.ok.injEq, Prod.mk.injEq] at hs
            obtain ⟨rfl, rfl⟩ := hs
            refine drain_cts hE n _ _ db' ?_ h
            intro fr' ch' a ha
            rcases List.mem_append.1 ha with ha | ha
            · obtain ⟨l, e, _⟩ := mem_writes ha
              simp at e
            · exact hW' fr' ch' a ha
        · simp at h

theorem exec_cts {E : Engine} {C : Nat → Prop} (hE : ∀ tr ∈ E.triggers, ∀ a ∈ tr.actions, ∀ ct, a.markCt = some ct → C ct) {n : Nat} {s : Stmt}
    {db db' : Db} (h : E.exec n s db = .ok db') : ∀ m ∈ db'.dirty, m ∈ db.dirty ∨ C m.ct := by
  refine drain_cts hE n _ db db' ?_ h
  intro fr ch a ha
  obtain ⟨l, e, _⟩ := mem_writes ha
  simp at e

theorem exec_known (hP : Project A D) {n : Nat} {s : Stmt} {db db' : Db} (h : A.engine.exec n s db = .ok db') (hm : MarksKnown A db) :
    MarksKnown A db' := by
  intro m hm'
  rcases exec_cts (C := fun ct => ∃ om ∈ A.models, om.model.ct = ct) (fun tr htr a ha ct hct => by
    obtain ⟨dn, hdn, e⟩ := mark_cts hP.installed hP.this htr ha hct
    obtain ⟨om, hom, e'⟩ := hP.known dn hdn
    exact ⟨om, hom, by rw [e', e]⟩) h m hm' with h1 | h1
  · exact hm m h1
  · exact h1

theorem preSaveAll_limit {n : Nat} {m : Model} {db : Db} {add : Bool} : ∀ (fs : List SaveField) (mem : Row),
    preSaveAll (A.limit n) m db add fs mem = preSaveAll A m db add fs mem
  | [], _ => rfl
  | f :: fs, mem => by
    have : f.preSave (A.limit n) m db add mem = f.preSave A m db add mem := rfl
    simp only [preSaveAll, this]
    cases f.preSave A m db add mem with
    | ok v => exact preSaveAll_limit fs _
    | error e => rfl

theorem project_limit (hP : Project A D) (n : Nat) : Project (A.limit n) D :=
  ⟨hP.installed, hP.agree, ⟨hP.safe.kept, hP.safe.free⟩, hP.cts, hP.tables, hP.known, hP.this, hP.pkTable, hP.others, hP.generic, hP.through,
    hP.fixed, hP.fixedFk⟩

theorem flushOne_finishes (hP : Project A D) (hfin : ∀ s db, A.engine.Finishes s db) {db : Db} (hu : KeysUnique A db)
    (hm : MarksKnown A db) {m : Mark} (hmk : ∃ om ∈ A.models, om.model.ct = m.ct) :
    ∃ db' N, (∀ n, N ≤ n → (A.limit n).flushOne m db = .ok db') ∧ MarksKnown A db' ∧ KeysUnique A db' := by
  have hdrop : ∀ {db1 : Db}, MarksKnown A db1 → MarksKnown A (db1.dropMarks m) :=
    fun h m' hm' => h m' (List.mem_filter.1 hm').1
  suffices ∃ db1 N, (∀ n, N ≤ n → (A.limit n).saveObject m db = .ok db1) ∧ MarksKnown A db1 by
    obtain ⟨db1, N, h1, h2⟩ := this
    exact ⟨db1.dropMarks m, N, fun n hn => by simp [App.flushOne, h1 n hn], hdrop h2,
      (sameKeys_saveObject (A := A.limit N) (project_limit hP N).safe hu (h1 N (Nat.le_refl _))).2⟩
  cases hf : A.models.find? (fun om => om.model.ct == m.ct) with
  | none =>
    obtain ⟨om, hom, hct⟩ := hmk
    have := List.find?_eq_none.1 hf om hom
    simp [hct] at this
  | some om =>
    have hom := List.mem_of_find?_eq_some hf
    have hf' : ∀ n, (A.limit n).models.find? (fun om => om.model.ct == m.ct) = some om := fun _ => hf
    cases hrow : (db.rows om.model.table).find? (isRowOf om.model m.oid) with
    | none => exact ⟨db, 0, fun n _ => by simp [App.saveObject, App.contentObject, hf', hrow], hm⟩
    | some r =>
      obtain ⟨hr2, hk⟩ := find_again hrow
      have hmem : r ∈ db.rows om.model.table := List.mem_of_find?_eq_some hrow
      have hpk := hP.safe.kept om hom om hom rfl
      have hnpk : ∀ f ∈ om.saved, f.col ≠ om.model.pk := fun f hf e => hpk (List.mem_map.2 ⟨f, hf, e⟩)
      obtain ⟨mem, hpre⟩ := preSaveAll_ok (A := A) hr2 om.saved r rfl hnpk
      have hany : (db.rows om.model.table).any (isRowOf om.model (r om.model.pk)) = true :=
        List.any_eq_true.2 ⟨r, hmem, List.find?_some (p := isRowOf om.model (r om.model.pk)) hr2⟩
      obtain ⟨db', N, h1⟩ := hfin (saveUpdate om mem) db
      refine ⟨db', N, fun n hn => ?_, exec_known hP (h1 N (Nat.le_refl _)) hm⟩
      have h2 : (A.limit n).exec (saveUpdate om mem) db = .ok db' := by
        have := h1 n hn
        simp only [App.exec]
        rw [show (A.limit n).engine.exec (A.limit n).fuel (saveUpdate om mem) db = .ok db' from this]
      simp [App.saveObject, App.contentObject, hf', hrow, App.save, preSaveAll_limit, hpre, hany, h2]

theorem flushList_finishes (hP : Project A D) (hfin : ∀ s db, A.engine.Finishes s db) : ∀ (ms : List Mark) {db : Db}, KeysUnique A db →
    MarksKnown A db → (∀ m ∈ ms, ∃ om ∈ A.models, om.model.ct = m.ct) →
    ∃ db' N, (∀ n, N ≤ n → (A.limit n).flushList ms db = .ok db') ∧ MarksKnown A db' ∧ KeysUnique A db'
  | [], db, hu, hm, _ => ⟨db, 0, fun _ _ => rfl, hm, hu⟩
  | m :: ms, db, hu, hm, hms => by
    obtain ⟨db1, N, h1, h2, h3⟩ := flushOne_finishes hP hfin hu hm (hms m (List.mem_cons_self ..))
    obtain ⟨db', N', h4, h5, h6⟩ := flushList_finishes hP hfin ms h3 h2 fun m' hm' => hms m' (List.mem_cons_of_mem _ hm')
    exact ⟨db', max N N', fun n hn => by simp [App.flushList, h1 n (by omega), h4 n (by omega)], h5, h6⟩

theorem flush_finishes (hP : Project A D) (hfin : ∀ s db, A.engine.Finishes s db) (hp : ∀ l, (A.arrange l).Perm l) : ∀ (k : Nat) {db : Db},
    KeysUnique A db → MarksKnown A db → ∃ o N, ∀ n, N ≤ n → (A.limit n).flush k db = .ok o
  | k, db, hu, hm => by
    by_cases hd : db.dirty = []
    · exact ⟨some db, 0, fun n _ => by unfold App.flush; rw [if_pos hd]⟩
    · cases k with
      | zero => exact ⟨none, 0, fun n _ => by unfold App.flush; rw [if_neg hd]⟩
      | succ k =>
        obtain ⟨db1, N, h1, h2, h3⟩ := flushList_finishes hP hfin (A.snapshot db) hu hm fun m h => hm m ((mem_snapshot hp).1 h)
        obtain ⟨o, N', h4⟩ := flush_finishes hP hfin hp k h3 h2
        refine ⟨o, max N N', fun n hn => ?_⟩
        unfold App.flush
        rw [if_neg hd]
        have : (A.limit n).pass db = .ok db1 := h1 n (by omega)
        simp only [this]
        exact h4 n (by omega)

end
end Denorm
