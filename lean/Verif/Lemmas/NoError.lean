import Verif.Lemmas.Settle
/-!
# Projects without aggregates and cache keys: flush raises nothing
-/
namespace Denorm

/-- Content types of the markers an action inserts. -/
def Action.markCt : Action → Option Nat
  | .markValues ct _ _ _ => some ct
  | .markSelect ct _ _ _ _ _ _ => some ct
  | .update _ => none

theorem callback_markCt {d : Dep} {g : PyTrigger} (hg : g ∈ d.callbackTriggers) {a : Action} (ha : a ∈ g.actions) :
    a.markCt = some d.this.ct := by
  rcases d with ⟨this, other, rel, skip⟩
  rcases rel with f | f | (f | gr) | (f | gr) <;>
    simp only [Dep.callbackTriggers, callbackM2MTriggers, m2mColumns, List.mem_cons, List.not_mem_nil, or_false,
      List.cons_append, List.nil_append, List.append_nil] at hg <;>
    rcases hg with rfl | rfl | rfl | rfl <;> simp only [mkTrigger_actions, List.mem_cons, List.not_mem_nil, or_false] at ha <;>
    rcases ha with rfl | rfl <;> rfl

section
variable {A : App} {D : List Denorm}

/-- All triggers only insert markers, for models of the project. -/
theorem mark_actions (hE : Installed A.engine D) (hcb : ∀ dn ∈ D, ∃ bu md f sk ds, dn = .callback bu md f sk ds)
    (hthis : ∀ dn ∈ D, ∀ d ∈ dn.deps, d.this = dn.model) {tr : DbTrigger} (htr : tr ∈ A.engine.triggers) {a : Action}
    (ha : a ∈ tr.actions) : ∃ dn ∈ D, a.markCt = some dn.model.ct := by
  rw [hE] at htr
  obtain ⟨g, hg, _, h2⟩ := installed_origin htr ha
  obtain ⟨dn, hdn, hgd⟩ := List.mem_flatMap.1 hg
  refine ⟨dn, hdn, ?_⟩
  obtain ⟨bu, md, f, sk, ds, rfl⟩ := hcb dn hdn
  simp only [Denorm.triggers, List.mem_append] at hgd
  rcases hgd with hgd | hgd
  · cases bu with
    | true => simp at hgd
    | false =>
      simp only [Bool.false_eq_true, if_false, selfTriggers, List.mem_cons, List.not_mem_nil, or_false] at hgd
      rcases hgd with rfl | rfl <;> simp only [mkTrigger_actions, List.mem_singleton] at h2 <;> subst h2 <;> rfl
  · obtain ⟨d, hd, hgd⟩ := List.mem_flatMap.1 hgd
    rw [callback_markCt hgd h2, hthis _ hdn d hd]

theorem drain_marks {E : Engine} {C : Nat → Prop} : ∀ (W : List Item) (n : Nat) (db : Db), W.length ≤ n →
    (∀ it ∈ W, ∃ fr ch a ct, it = .act fr ch a ∧ a.markCt = some ct ∧ C ct) →
    ∃ db', E.drain n W db = .ok db' ∧ ∀ m ∈ db'.dirty, m ∈ db.dirty ∨ C m.ct
  | [], n, db, _, _ => ⟨db, by cases n <;> rfl, fun _ hm => .inl hm⟩
  | it :: W, 0, db, h, _ => by simp at h
  | it :: W, n + 1, db, h, hW => by
    obtain ⟨fr, ch, a, ct, rfl, h1, h2⟩ := hW it (List.mem_cons_self ..)
    have hW' := fun it hit => hW it (List.mem_cons_of_mem _ hit)
    simp only [List.length_cons, Nat.add_le_add_iff_right] at h
    cases a with
    | update u => simp [Action.markCt] at h1
    | markValues ct' s c q =>
      simp only [Action.markCt, Option.some.injEq] at h1
      subst h1
      obtain ⟨db', h3, h4⟩ := drain_marks (E := E) W n (db.addMarks [⟨ct', ch.side s c⟩]) h hW'
      refine ⟨db', by simpa [Engine.drain, Engine.step] using h3, fun m hm => ?_⟩
      rcases h4 m hm with h5 | h5
      · rcases List.mem_append.1 h5 with h5 | h5
        · exact .inl h5
        · simp only [List.mem_singleton] at h5
          subst h5
          exact .inr h2
      · exact .inr h5
    | markSelect ct' sel t k s c q =>
      simp only [Action.markCt, Option.some.injEq] at h1
      subst h1
      obtain ⟨db', h3, h4⟩ := drain_marks (E := E) W n (db.addMarks (selectMarks ct' sel (db.rows t) k (ch.side s c))) h hW'
      refine ⟨db', by simpa [Engine.drain, Engine.step] using h3, fun m hm => ?_⟩
      rcases h4 m hm with h5 | h5
      · rcases List.mem_append.1 h5 with h5 | h5
        · exact .inl h5
        · obtain ⟨r, _, _, rfl⟩ := mem_selectMarks.1 h5
          exact .inr h2
      · exact .inr h5

theorem fired_length (E : Engine) (fr : Frame) (ch : Change) : (E.fired fr ch).length ≤ (E.triggers.flatMap (·.actions)).length := by
  simp only [Engine.fired]
  induction E.triggers with
  | nil => simp
  | cons tr l ih =>
    simp only [List.filter_cons, List.flatMap_cons, List.length_append]
    split
    · simp only [List.flatMap_cons, List.length_append, List.length_map]; omega
    · omega

theorem preSaveAll_ok {m : Model} {db : Db} {r : Row} (hr : (db.rows m.table).find? (isRowOf m (r m.pk)) = some r) :
    ∀ (fs : List SaveField) (mem : Row), mem m.pk = r m.pk → (∀ f ∈ fs, f.col ≠ m.pk) → ∃ mem', preSaveAll A m db false fs mem = .ok mem'
  | [], mem, _, _ => ⟨mem, rfl⟩
  | f :: fs, mem, hk, hn => by
    have : ∃ v, f.preSave A m db false mem = .ok v := by
      simp only [SaveField.preSave]
      cases f.kind with
      | plain => exact ⟨_, rfl⟩
      | callback cb => exact ⟨_, rfl⟩
      | cacheKey => exact ⟨_, rfl⟩
      | aggregate =>
        simp only [Bool.false_eq_true, if_false]
        rw [show (fun r => Val.sqlEq (r m.pk) (mem m.pk)) = isRowOf m (r m.pk) from by funext x; simp [isRowOf, hk], hr]
        exact ⟨_, rfl⟩
    obtain ⟨v, hv⟩ := this
    simp only [preSaveAll, hv]
    refine preSaveAll_ok hr fs _ ?_ fun g hg => hn g (List.mem_cons_of_mem _ hg)
    have := hn f (List.mem_cons_self ..)
    simp [Row.set, Ne.symm this, hk]

theorem flushOne_ok (hC : Calm A D) {db : Db} (hu : KeysUnique A db) (hm : MarksKnown A db) {m : Mark}
    (hmk : ∃ om ∈ A.models, om.model.ct = m.ct) : ∃ db', A.flushOne m db = .ok db' ∧ MarksKnown A db' ∧ KeysUnique A db' := by
  have hdrop : ∀ {db1 : Db}, MarksKnown A db1 → MarksKnown A (db1.dropMarks m) :=
    fun h m' hm' => h m' (List.mem_filter.1 hm').1
  suffices ∃ db1, A.saveObject m db = .ok db1 ∧ MarksKnown A db1 by
    obtain ⟨db1, h1, h2⟩ := this
    exact ⟨db1.dropMarks m, by simp [App.flushOne, h1], hdrop h2, (sameKeys_saveObject hC.safe hu h1).2⟩
  cases hf : A.models.find? (fun om => om.model.ct == m.ct) with
  | none =>
    obtain ⟨om, hom, hct⟩ := hmk
    have := List.find?_eq_none.1 hf om hom
    simp [hct] at this
  | some om =>
    have hom := List.mem_of_find?_eq_some hf
    cases hrow : (db.rows om.model.table).find? (isRowOf om.model m.oid) with
    | none => exact ⟨db, by simp [App.saveObject, App.contentObject, hf, hrow], hm⟩
    | some r =>
      obtain ⟨hr2, hk⟩ := find_again hrow
      have hmem : r ∈ db.rows om.model.table := List.mem_of_find?_eq_some hrow
      have hpk := hC.safe.kept om hom om hom rfl
      have hnpk : ∀ f ∈ om.saved, f.col ≠ om.model.pk := fun f hf e => hpk (List.mem_map.2 ⟨f, hf, e⟩)
      obtain ⟨mem, hpre⟩ := preSaveAll_ok (A := A) hr2 om.saved r rfl hnpk
      have hkey : mem om.model.pk = r om.model.pk := preSaveAll_other hpre _ hnpk
      have hany : (db.rows om.model.table).any (isRowOf om.model (r om.model.pk)) = true :=
        List.any_eq_true.2 ⟨r, hmem, List.find?_some (p := isRowOf om.model (r om.model.pk)) hr2⟩
      obtain ⟨i, hi⟩ := List.getElem?_of_mem hmem
      have hT : targetsOf (db.rows om.model.table) (isRowOf om.model (mem om.model.pk)) = [i] :=
        targetsOf_unique (hu om hom).1 hi hkey.symm (hkey ▸ (hu om hom).2 r hmem)
      have hstart : A.engine.start (saveUpdate om mem) db = [.write .top om.model.table [.upd i fun _ r => savedRow om mem r]] := by
        simp only [Engine.start, saveUpdate, Stmt.ops, Stmt.table, hT]
        cases A.engine.backend <;> rfl
      have hfuel := hC.fuel
      simp only [FuelEnough] at hfuel
      obtain ⟨n, hn⟩ : ∃ n, A.fuel = n + 1 := ⟨A.fuel - 1, by omega⟩
      have hdr := drain_marks (E := A.engine) (C := fun ct => ∃ om ∈ A.models, om.model.ct = ct)
        (A.engine.fired .top ⟨om.model.table, .update, r, savedRow om mem r⟩) n
        { db.setRows om.model.table ((db.rows om.model.table).set i (savedRow om mem r)) with draws := db.draws + 1 }
        (by have := fired_length A.engine .top ⟨om.model.table, .update, r, savedRow om mem r⟩; omega) (by
          intro it hit
          obtain ⟨tr, htr, _, a, ha, rfl⟩ := mem_fired.1 hit
          obtain ⟨dn, hdn, hct⟩ := mark_actions hC.installed hC.callbacks hC.this htr ha
          obtain ⟨om', hom', e⟩ := hC.known dn hdn
          exact ⟨_, _, a, _, rfl, hct, om', hom', by rw [e]⟩)
      obtain ⟨db', h1, h2⟩ := hdr
      have hexec : A.engine.exec A.fuel (saveUpdate om mem) db = .ok db' := by
        rw [Engine.exec, hstart, hn]
        simpa [Engine.drain, Engine.step, applyOps, applyOp, hi] using h1
      refine ⟨db', by simp [App.saveObject, App.contentObject, hf, hrow, App.save, hpre, hany, App.exec, hexec], ?_⟩
      intro m' hm'
      rcases h2 m' hm' with h3 | h3
      · exact hm m' h3
      · exact h3

theorem flushList_ok (hC : Calm A D) : ∀ (ms : List Mark) {db : Db}, KeysUnique A db → MarksKnown A db →
    (∀ m ∈ ms, ∃ om ∈ A.models, om.model.ct = m.ct) → ∃ db', A.flushList ms db = .ok db' ∧ MarksKnown A db' ∧ KeysUnique A db'
  | [], db, hu, hm, _ => ⟨db, rfl, hm, hu⟩
  | m :: ms, db, hu, hm, hms => by
    obtain ⟨db1, h1, h2, h3⟩ := flushOne_ok hC hu hm (hms m (List.mem_cons_self ..))
    obtain ⟨db', h4, h5, h6⟩ := flushList_ok hC ms h3 h2 fun m' hm' => hms m' (List.mem_cons_of_mem _ hm')
    exact ⟨db', by simp [App.flushList, h1, h4], h5, h6⟩

theorem flush_ok (hC : Calm A D) (hp : ∀ l, (A.arrange l).Perm l) : ∀ (n : Nat) {db : Db}, KeysUnique A db → MarksKnown A db →
    ∃ o, A.flush n db = .ok o
  | n, db, hu, hm => by
    unfold App.flush
    split
    · exact ⟨_, rfl⟩
    · cases n with
      | zero => exact ⟨_, rfl⟩
      | succ n =>
        obtain ⟨db1, h1, h2, h3⟩ := flushList_ok hC (A.snapshot db) hu hm fun m h => hm m ((mem_snapshot hp).1 h)
        simp only [App.pass, h1]
        exact flush_ok hC hp n h3 h2

end
end Denorm
