import Verif.Lemmas.MarksInv
/-!
# Flush works its way up the layers
-/
namespace Denorm

theorem Val.sqlEq_swap {a b : Val} (h : Val.sqlEq a b = true) : Val.sqlEq b a = true := by
  obtain ⟨rfl, hn⟩ := Val.sqlEq_iff.1 h
  exact Val.sqlEq_iff.2 ⟨rfl, hn⟩

section
variable {A : App} {D : List Denorm}

theorem pk_untouched (hS : KeysSafe A) {om : OrmModel} (hom : om ∈ A.models) : ¬ Touched A om.model.table om.model.pk := by
  rintro ⟨om', hom', ⟨ht, hc⟩ | h⟩
  · exact hS.kept om hom om' hom' ht (mem_denormCols hc)
  · exact hS.free om hom om' hom' h

/-- Which instance depends on which is seen in columns that flushing does not change. -/
theorem related_alike (hP : Project A D) {dn : Denorm} (hdn : dn ∈ D) {d : Dep} (hd : d ∈ dn.deps) {db0 db : Db}
    (hso : SameOutside (Touched A) db0 db) {o o0 x x0 : Row} (ho : Alike A d.otherTable o0 o) (hx : Alike A dn.model.table x0 x)
    (h : d.relatedTo db x o) : d.relatedTo db0 x0 o0 := by
  obtain ⟨om, hom, hm⟩ := hP.known dn hdn
  have hthis := hP.this dn hdn d hd
  obtain ⟨hl, hok⟩ := hP.fixed dn hdn d hd
  have hxpk : x d.this.pk = x0 d.this.pk := by
    refine hx _ ?_
    rw [hthis, ← hm]
    exact pk_untouched hP.safe hom
  rw [← hthis] at hx
  have hng := hP.generic dn hdn d hd
  clear hP hd hthis
  rcases d with ⟨this, other, rel, skip⟩
  rcases rel with f | f | (f | gr) | (f | gr)
  · have h1 := hx f.column (hok _ (by simp [Dep.ownKeys]))
    have h2 := ho other.pk (hl (other.table, other.pk) (by simp [Dep.looks]))
    simp only [Dep.relatedTo] at h ⊢
    rwa [← h1, ← h2]
  · have h2 := ho f.column (hl (other.table, f.column) (by simp [Dep.looks]))
    simp only [Dep.relatedTo] at h ⊢ hxpk
    rwa [← hxpk, ← h2]
  · have h2 := ho other.pk (hl (other.table, other.pk) (by simp [Dep.looks]))
    simp only [Dep.relatedTo] at h ⊢ hxpk
    obtain ⟨l, hlm, h3, h4⟩ := h
    obtain ⟨l0, hl0, h5⟩ := (hso f.through).right hlm
    have e1 := h5 f.colName (hl (f.through, f.colName) (by simp [Dep.looks]))
    have e2 := h5 f.revName (hl (f.through, f.revName) (by simp [Dep.looks]))
    exact ⟨l0, hl0, by rwa [← e1, ← hxpk], by rwa [← e2, ← h2]⟩
  · have h1 := ho (gr.ctFieldName ++ "_id") (hl (gr.remoteTable, gr.ctFieldName ++ "_id") (by simp [Dep.looks]))
    have h2 := ho gr.objectIdField (hl (gr.remoteTable, gr.objectIdField) (by simp [Dep.looks]))
    simp only [Dep.relatedTo] at h ⊢ hxpk
    rwa [← h1, ← h2, ← hxpk]
  · have h2 := ho other.pk (hl (other.table, other.pk) (by simp [Dep.looks]))
    simp only [Dep.relatedTo] at h ⊢ hxpk
    obtain ⟨l, hlm, h3, h4⟩ := h
    obtain ⟨l0, hl0, h5⟩ := (hso f.through).right hlm
    have e1 := h5 f.colName (hl (f.through, f.colName) (by simp [Dep.looks]))
    have e2 := h5 f.revName (hl (f.through, f.revName) (by simp [Dep.looks]))
    exact ⟨l0, hl0, by rwa [← e2, ← hxpk], by rwa [← e1, ← h2]⟩
  · exact absurd rfl (hng gr).1

theorem feeds_alike (hP : Project A D) {dn : Denorm} (hdn : dn ∈ D) {db0 db : Db} (hso : SameOutside (Touched A) db0 db)
    {t : TableName} {o o0 x x0 : Row} (ho : Alike A t o0 o) (hx : Alike A dn.model.table x0 x) (h : dn.feeds db t o x) :
    dn.feeds db0 t o0 x0 := by
  rcases h with ⟨d, hd, rfl, h⟩ | ⟨a, rfl, rfl, h⟩
  · exact .inl ⟨d, hd, rfl, related_alike hP hdn hd hso ho hx h⟩
  · refine .inr ⟨a, rfl, rfl, ?_⟩
    have h1 := ho _ (hP.fixedFk a hdn)
    obtain ⟨om, hom, hm⟩ := hP.known _ hdn
    have h2 : x a.model.pk = x0 a.model.pk := by
      refine hx _ ?_
      have := pk_untouched hP.safe hom
      rwa [hm] at this
    rwa [← h1, ← h2]

theorem layered_same (hP : Project A D) {rank : Nat → Val → Nat} {L : Nat} {db0 db : Db} (hso : SameOutside (Touched A) db0 db)
    (hL : Layered A D rank L db0) : Layered A D rank L db := by
  have key : ∀ om ∈ A.models, ∀ o ∈ db.rows om.model.table, ∃ o0 ∈ db0.rows om.model.table, Alike A om.model.table o0 o ∧
      o om.model.pk = o0 om.model.pk := by
    intro om hom o ho
    obtain ⟨o0, h1, h2⟩ := (hso om.model.table).right ho
    exact ⟨o0, h1, h2, h2 _ (pk_untouched hP.safe hom)⟩
  constructor
  · intro dn hdn om hom o ho x hx hf
    obtain ⟨om', hom', hm⟩ := hP.known dn hdn
    obtain ⟨o0, ho0, h1, h2⟩ := key om hom o ho
    rw [← hm] at hx
    obtain ⟨x0, hx0, h3, h4⟩ := key om' hom' x hx
    rw [hm] at hx0 h3 h4
    rw [h2, h4]
    exact hL.up dn hdn om hom o0 ho0 x0 hx0 (feeds_alike hP hdn hso h1 h3 hf)
  · intro om hom o ho
    obtain ⟨o0, ho0, h1, h2⟩ := key om hom o ho
    rw [h2]
    exact hL.bound om hom o0 ho0

/-- The rank of a marker's instance. -/
def Mark.rank (rank : Nat → Val → Nat) (m : Mark) : Nat := rank m.ct m.oid

/-- Saving an instance writes the instance itself and instances of higher rank, so it creates markers for these only (and possibly
markers that do not point to any instance). -/
theorem rank_spreads (hP : Project A D) {rank : Nat → Val → Nat} {L : Nat} {db0 : Db} (hL : Layered A D rank L db0)
    {om0 : OrmModel} {k : Val} {ρ : Nat} (hρ : ρ = rank om0.model.ct k) :
    Spreads A D
      (fun t o => ∃ om ∈ A.models, om.model.table = t ∧ ∃ o0 ∈ db0.rows t, Alike A t o0 o ∧
        ((om = om0 ∧ o0 om.model.pk = k) ∨ ρ < rank om.model.ct (o0 om.model.pk)))
      (fun m => m = ⟨om0.model.ct, k⟩ ∨ ¬ A.HasTarget db0 m ∨ ρ < m.rank rank) db0 := by
  have below : ∀ {om : OrmModel} {v : Val}, ((om = om0 ∧ v = k) ∨ ρ < rank om.model.ct v) → ρ ≤ rank om.model.ct v := by
    rintro om v (⟨rfl, rfl⟩ | h)
    · omega
    · omega
  refine ⟨?_, ?_, ?_⟩
  · rintro t o o' h ⟨om, hom, ht, o0, ho0, h1, h2⟩
    exact ⟨om, hom, ht, o0, ho0, fun c hc => (h c hc).trans (h1 c hc), h2⟩
  · rintro db hso t o ⟨om, hom, rfl, o0, ho0, h1, h2⟩ dn hdn x hx hr
    obtain ⟨om', hom', hm⟩ := hP.known dn hdn
    obtain ⟨x0, hx0, h3⟩ := (hso dn.model.table).right hx
    have hf : dn.feeds db om.model.table o x := by
      cases dn with
      | callback => exact hr.elim
      | aggregate a => exact .inr ⟨a, rfl, hr.1, Val.sqlEq_swap hr.2⟩
      | cacheKey md f deps =>
        obtain ⟨d, hd, hr, hct⟩ := hr
        have hng := hP.generic _ hdn d hd
        have hth := hP.through _ hdn d hd
        refine .inl ⟨d, hd, ?_⟩
        clear hd
        rcases d with ⟨this, other, rel, skip⟩
        rcases rel with f | f | (f | gr) | (f | gr) <;> simp only [Dep.reaches] at hr
        · exact ⟨hr.1, hr.2⟩
        · exact ⟨hr.1, Val.sqlEq_swap hr.2⟩
        · rcases hr with ⟨e, _⟩ | ⟨e, l, hl, h4, h5⟩
          · exact absurd e (hth (f.through, f.colName, f.revName) (by simp [Dep.m2mTable]) om hom)
          · exact ⟨e, l, hl, Val.sqlEq_swap h5, h4⟩
        · exact ⟨hr.1, hct gr rfl ((hng gr).2 rfl), Val.sqlEq_swap hr.2⟩
        · rcases hr with ⟨e, _⟩ | ⟨e, l, hl, h4, h5⟩
          · exact absurd e (hth (f.through, f.revName, f.colName) (by simp [Dep.m2mTable]) om hom)
          · exact ⟨e, l, hl, Val.sqlEq_swap h5, h4⟩
        · exact absurd rfl (hng gr).1
    have hlt := hL.up dn hdn om hom o0 ho0 x0 hx0 (feeds_alike hP hdn hso h1 h3 hf)
    rw [← hm] at hlt hx0 h3 ⊢
    exact ⟨om', hom', rfl, x0, hx0, h3, .inr (Nat.lt_of_le_of_lt (below h2) hlt)⟩
  · rintro db hso t o ⟨om, hom, rfl, o0, ho0, h1, h2⟩ dn hdn m hm
    obtain ⟨om', hom', hmd⟩ := hP.known dn hdn
    by_cases htg : A.HasTarget db0 m
    · cases dn with
      | cacheKey => exact hm.elim
      | aggregate => exact hm.elim
      | callback bu md f sk deps =>
        rcases hm with ⟨ht, rfl⟩ | ⟨d, hd, hdm, hct⟩
        · simp only [Denorm.model] at hmd
          have : om = om' := hP.tables om hom om' hom' (by rw [ht, hmd])
          subst this
          have hpk : o om.model.pk = o0 om.model.pk := h1 _ (pk_untouched hP.safe hom)
          rw [← hmd, hpk]
          rcases h2 with ⟨rfl, rfl⟩ | h2
          · exact .inl rfl
          · exact .inr (.inr h2)
        · refine .inr (.inr ?_)
          have hthis := hP.this _ hdn d hd
          have hng := hP.generic _ hdn d hd
          have hth := hP.through _ hdn d hd
          have hoth := hP.others _ hdn d hd om hom
          have hpkt := hP.pkTable _ hdn
          -- the marker's instance
          obtain ⟨om1, hf1, x0, hx0, hk, hnn⟩ := htg
          have hom1 := List.mem_of_find?_eq_some hf1
          have hct1 : om1.model.ct = m.ct := by simpa using List.find?_some hf1
          have mct : m.ct = md.ct := by
            simp only [Denorm.model] at hthis
            rw [← hthis]
            clear hth hoth hng hthis hct hd
            rcases d with ⟨this, other, rel, skip⟩
            rcases rel with f | f | (f | gr) | (f | gr) <;> simp only [Dep.marks] at hdm
            · obtain ⟨_, x, _, _, rfl⟩ := hdm; rfl
            · obtain ⟨_, rfl | ⟨x, _, _, rfl⟩⟩ := hdm <;> rfl
            · obtain ⟨_, rfl⟩ | ⟨_, x, _, _, rfl⟩ := hdm <;> rfl
            · obtain ⟨_, rfl⟩ := hdm; rfl
            · obtain ⟨_, rfl⟩ | ⟨_, x, _, _, rfl⟩ := hdm <;> rfl
            · obtain ⟨_, rfl⟩ := hdm; rfl
          have e1 : om1 = om' := hP.cts om1 hom1 om' hom' (by rw [hct1, mct, hmd]; rfl)
          subst e1
          simp only [Denorm.model] at hmd hthis hpkt
          rw [hmd] at hx0 hk
          obtain ⟨x, hx, hxx⟩ := (hso md.table).left hx0
          have hxpk : x md.pk = m.oid := by
            have := pk_untouched hP.safe hom1
            rw [hmd] at this
            exact (hxx _ this).trans hk
          -- the instance depends on a row with the same key as `o`
          have main : ∃ o1 o10 y y0, o10 ∈ db0.rows om.model.table ∧ Alike A om.model.table o10 o1 ∧
              o10 om.model.pk = o0 om.model.pk ∧ y0 ∈ db0.rows md.table ∧ Alike A md.table y0 y ∧ y0 md.pk = m.oid ∧
              d.otherTable = om.model.table ∧ d.relatedTo db y o1 := by
            have hopk : o om.model.pk = o0 om.model.pk := h1 _ (pk_untouched hP.safe hom)
            have tgt : ∀ v, v = m.oid → Val.sqlEq v (x md.pk) = true := fun v hv => Val.sqlEq_iff.2 ⟨hv.trans hxpk.symm, hv ▸ hnn⟩
            clear hd
            rcases d with ⟨this, other, rel, skip⟩
            simp only at hthis hoth
            subst hthis
            rcases rel with f | f | (f | gr) | (f | gr) <;> simp only [Dep.marks] at hdm
            · obtain ⟨ht, y, hy, hyf, rfl⟩ := hdm
              rw [hpkt] at hy
              obtain ⟨y0, hy0, hyy⟩ := (hso _).right hy
              refine ⟨o, o0, y, y0, ho0, h1, rfl, hy0, hyy, ?_, ht.symm, hyf⟩
              have := pk_untouched hP.safe hom1
              rw [hmd] at this
              exact (hyy _ this).symm
            · obtain ⟨ht, rfl | ⟨o', ho', hoo, rfl⟩⟩ := hdm
              · exact ⟨o, o0, x, x0, ho0, h1, rfl, hx0, hxx, hk, ht.symm, tgt _ rfl⟩
              · rw [← ht] at ho'
                obtain ⟨o10, ho10, h4⟩ := (hso om.model.table).right ho'
                refine ⟨o', o10, x, x0, ho10, h4, ?_, hx0, hxx, hk, ht.symm, tgt _ rfl⟩
                have h5 := hoth ht
                rw [← h4 _ (pk_untouched hP.safe hom), ← hopk, h5]
                exact (Val.sqlEq_iff.1 hoo).1
            · rcases hdm with ⟨e, _⟩ | ⟨e, l, hl, h4, rfl⟩
              · exact absurd e (hth (f.through, f.colName, f.revName) (by simp [Dep.m2mTable]) om hom)
              · exact ⟨o, o0, x, x0, ho0, h1, rfl, hx0, hxx, hk, e.symm, l, hl, tgt _ rfl, h4⟩
            · obtain ⟨e, rfl⟩ := hdm
              exact ⟨o, o0, x, x0, ho0, h1, rfl, hx0, hxx, hk, e.symm, hct gr rfl ((hng gr).2 rfl), tgt _ rfl⟩
            · rcases hdm with ⟨e, _⟩ | ⟨e, l, hl, h4, rfl⟩
              · exact absurd e (hth (f.through, f.revName, f.colName) (by simp [Dep.m2mTable]) om hom)
              · exact ⟨o, o0, x, x0, ho0, h1, rfl, hx0, hxx, hk, e.symm, l, hl, tgt _ rfl, h4⟩
            · exact absurd rfl (hng gr).1
          obtain ⟨o1, o10, y, y0, ho10, h4, h5, hy0, hyy, hyk, h6, h7⟩ := main
          have hlt := hL.up _ hdn om hom o10 ho10 y0 hy0
            (feeds_alike hP hdn hso h4 hyy (.inl ⟨d, hd, h6.symm, h7⟩))
          simp only [Denorm.model] at hlt
          rw [h5, hyk] at hlt
          rw [Mark.rank, mct]
          exact Nat.lt_of_le_of_lt (below h2) hlt
    · exact .inr (.inl htg)

/-! ## Passes -/

variable {rank : Nat → Val → Nat} {L : Nat}

/-- What flushing one marker does to the others. -/
theorem flushOne_marks (hP : Project A D) {db db' : Db} (hu : KeysUnique A db) (hL : Layered A D rank L db) {m : Mark}
    (h : A.flushOne m db = .ok db') : SameOutside (Touched A) db db' ∧ SameKeys A db db' ∧ KeysUnique A db' ∧
      ∀ m' ∈ db'.dirty, m' ≠ m ∧ (m' ∈ db.dirty ∨ (A.HasTarget db m ∧ (A.HasTarget db m' → m.rank rank < m'.rank rank))) := by
  obtain ⟨hk1, hk2⟩ := sameKeys_flushOne hP.safe hu h
  simp only [App.flushOne] at h
  cases hs : A.saveObject m db with
  | error e => rw [hs] at h; simp at h
  | ok db1 =>
    rw [hs] at h
    simp only [Except.ok.injEq] at h
    subst h
    rcases saveObject_cases hP.safe hu hs with ⟨hc, rfl⟩ | ⟨om, hom, r, mem, hc, hf, hk, hSv⟩
    · refine ⟨SameOutside.refl _ _, hk1, hk2, fun m' hm' => ?_⟩
      obtain ⟨h1, h2⟩ := List.mem_filter.1 hm'
      exact ⟨by simpa using h2, .inl h1⟩
    · have hsame : ∀ c, c ∉ om.denormCols → savedRow om mem r c = r c := by
        intro c hc
        simp only [savedRow]
        split
        · exact hSv.plain c hc
        · rfl
      have hct : om.model.ct = m.ct := by simpa using List.find?_some hf
      have := saveUpdate_marks hP hom (rank_spreads hP hL (om0 := om) (k := m.oid) rfl) (hu om hom).1 hSv.inTable hSv.key.symm
        ((hu om hom).2 r hSv.inTable) hsame ⟨om, hom, rfl, r, hSv.inTable, fun _ _ => rfl, .inl ⟨rfl, hk⟩⟩ hSv.exec
      refine ⟨this.1, hk1, hk2, fun m' hm' => ?_⟩
      obtain ⟨h1, h2⟩ := List.mem_filter.1 hm'
      simp only [ne_eq, decide_eq_true_eq] at h2
      refine ⟨h2, ?_⟩
      rcases this.2 m' h1 with h3 | h3 | h3 | h3
      · exact .inl h3
      · exact absurd (by rw [h3, hct]) h2
      · exact .inr ⟨hasTarget_of_some hc, fun h => absurd h h3⟩
      · refine .inr ⟨hasTarget_of_some hc, fun _ => ?_⟩
        rw [hct] at h3
        exact h3

/-- One pass of flush: all markers of rank `p` are gone, new ones are higher up. -/
theorem flushList_marks (hP : Project A D) {p : Nat} : ∀ (ms : List Mark) {db db' : Db}, KeysUnique A db → Layered A D rank L db →
    A.flushList ms db = .ok db' → (∀ m ∈ ms, A.HasTarget db m → p ≤ m.rank rank) →
    (∀ m ∈ db.dirty, A.HasTarget db m → m ∈ ms ∨ p < m.rank rank) →
    SameOutside (Touched A) db db' ∧ SameKeys A db db' ∧ KeysUnique A db' ∧ ∀ m ∈ db'.dirty, A.HasTarget db' m → p < m.rank rank
  | [], db, db', hu, _, h, _, hd => by
    simp only [App.flushList, Except.ok.injEq] at h
    subst h
    exact ⟨SameOutside.refl _ _, fun _ _ => rfl, hu, fun m hm ht => (hd m hm ht).resolve_left (by simp)⟩
  | m :: ms, db, db', hu, hL, h, hms, hd => by
    simp only [App.flushList] at h
    cases hs : A.flushOne m db with
    | error e => rw [hs] at h; simp at h
    | ok db1 =>
      rw [hs] at h
      obtain ⟨h1, h2, h3, h4⟩ := flushOne_marks hP hu hL hs
      have hT := fun m => sameKeys_target h2 m
      obtain ⟨h5, h6, h7, h8⟩ := flushList_marks hP (p := p) ms h3 (layered_same hP h1 hL) h
        (fun m' hm' ht => hms m' (List.mem_cons_of_mem _ hm') ((hT m').1 ht)) (by
          intro m' hm' ht
          obtain ⟨h9, h10⟩ := h4 m' hm'
          rw [hT] at ht
          rcases h10 with h10 | ⟨h10, h11⟩
          · rcases hd m' h10 ht with h12 | h12
            · exact .inl ((List.mem_cons.1 h12).resolve_left h9)
            · exact .inr h12
          · exact .inr (Nat.lt_of_le_of_lt (hms m (List.mem_cons_self ..) h10) (h11 ht)))
      exact ⟨h1.trans h5, fun om hom => (h6 om hom).trans (h2 om hom), h7, h8⟩

theorem mem_snapshot {A : App} (hp : ∀ l, (A.arrange l).Perm l) {db : Db} {m : Mark} : m ∈ A.snapshot db ↔ m ∈ db.dirty := by
  simp only [App.snapshot]
  split
  · rw [mem_dedup]; exact (hp _).mem_iff
  · exact (hp _).mem_iff

theorem pass_marks (hP : Project A D) (hp : ∀ l, (A.arrange l).Perm l) {p : Nat} {db db' : Db} (hu : KeysUnique A db)
    (hL : Layered A D rank L db) (h : A.pass db = .ok db') (hd : ∀ m ∈ db.dirty, A.HasTarget db m → p ≤ m.rank rank) :
    KeysUnique A db' ∧ Layered A D rank L db' ∧ SameKeys A db db' ∧ ∀ m ∈ db'.dirty, A.HasTarget db' m → p + 1 ≤ m.rank rank := by
  obtain ⟨h1, h2, h3, h4⟩ := flushList_marks hP (p := p) _ hu hL h (fun m hm => hd m ((mem_snapshot hp).1 hm))
    (fun m hm _ => .inl ((mem_snapshot hp).2 hm))
  exact ⟨h3, layered_same hP h1 hL, h2, h4⟩

theorem rank_bound (hL : Layered A D rank L db) {m : Mark} (ht : A.HasTarget db m) : m.rank rank < L := by
  obtain ⟨om, h1, r, hr, hk, _⟩ := ht
  have := hL.bound om (List.mem_of_find?_eq_some h1) r hr
  have hct : om.model.ct = m.ct := by simpa using List.find?_some h1
  rwa [hk, hct] at this

/-- A pass over markers none of which has a target only deletes them. -/
theorem flushList_targetless : ∀ (ms : List Mark) {db db' : Db}, (∀ m, ¬ A.HasTarget db m ∨ m ∉ ms) → A.flushList ms db = .ok db' →
    db'.dirty = db.dirty.filter fun m => m ∉ ms
  | [], db, db', _, h => by
    simp only [App.flushList, Except.ok.injEq] at h
    subst h
    rw [List.filter_eq_self.2 (by simp)]
  | m :: ms, db, db', hn, h => by
    simp only [App.flushList] at h
    cases hs : A.flushOne m db with
    | error e => rw [hs] at h; simp at h
    | ok db1 =>
      rw [hs] at h
      have h1 : db1 = db.dropMarks m := by
        simp only [App.flushOne, App.saveObject] at hs
        cases hc : A.contentObject db m with
        | error e => rw [hc] at hs; simp at hs
        | ok o =>
          cases o with
          | none => rw [hc] at hs; simpa using hs.symm
          | some p => exact absurd (hasTarget_of_some hc) ((hn m).resolve_right (by simp))
      subst h1
      have ih := flushList_targetless ms (fun m' => (hn m').imp (fun h h' => h h') (fun h => fun hm => h (List.mem_cons_of_mem _ hm))) h
      rw [ih]
      simp only [Db.dropMarks, List.filter_filter]
      congr 1
      funext m'
      by_cases e : m' = m <;> simp [e]

theorem flush_layers (hP : Project A D) (hp : ∀ l, (A.arrange l).Perm l) : ∀ (k p : Nat) {db : Db}, p + k = L → KeysUnique A db →
    Layered A D rank L db → (∀ m ∈ db.dirty, A.HasTarget db m → p ≤ m.rank rank) → A.flush (k + 1) db ≠ .ok none
  | k, p, db, hk, hu, hL, hd, h => by
    unfold App.flush at h
    split at h
    · simp at h
    · simp only at h
      cases hs : A.pass db with
      | error e => rw [hs] at h; simp at h
      | ok db1 =>
        rw [hs] at h
        simp only at h
        cases k with
        | zero =>
          have hnone : ∀ m, ¬ A.HasTarget db m ∨ m ∉ A.snapshot db := by
            intro m
            by_cases ht : A.HasTarget db m
            · refine .inr fun hm => ?_
              have h1 := hd m ((mem_snapshot hp).1 hm) ht
              have h2 := rank_bound hL ht
              omega
            · exact .inl ht
          have := flushList_targetless _ hnone hs
          have he : db1.dirty = [] := by
            rw [this, List.filter_eq_nil_iff]
            intro m hm
            simp [(mem_snapshot hp).2 hm]
          simp [App.flush, he] at h
        | succ k =>
          obtain ⟨h1, h2, _, h4⟩ := pass_marks hP hp hu hL hs hd
          exact flush_layers hP hp k (p + 1) (by omega) h1 h2 h4 h

theorem flush_clean : ∀ (n : Nat) {db db' : Db}, A.flush n db = .ok (some db') → db'.dirty = []
  | n, db, db', h => by
    unfold App.flush at h
    split at h
    · rename_i hd
      simp only [Except.ok.injEq, Option.some.injEq] at h
      exact h ▸ hd
    · cases n with
      | zero => simp at h
      | succ n =>
        simp only at h
        cases hs : A.pass db with
        | error e => rw [hs] at h; simp at h
        | ok db1 =>
          rw [hs] at h
          exact flush_clean n h

/-- Saves per instance, backends with DISTINCT ON. -/
theorem flushSaves_layers (hP : Project A D) (hp : ∀ l, (A.arrange l).Perm l) (hb : A.engine.backend = .postgresql) :
    ∀ (n p : Nat) {db : Db}, KeysUnique A db → Layered A D rank L db → (∀ m ∈ db.dirty, A.HasTarget db m → p ≤ m.rank rank) →
      ∀ m, (A.flushSaves n db).count m ≤ m.rank rank + 1 - p
  | 0, _, _, _, _, _, _ => by simp [App.flushSaves]
  | n + 1, p, db, hu, hL, hd, m => by
    simp only [App.flushSaves]
    split
    · simp
    · have hs : A.snapshot db = dedup (A.arrange db.dirty) := by simp [App.snapshot, hb]
      have hnd : (A.savedIn (A.snapshot db) db).Nodup := (hs ▸ nodup_dedup _ : (A.snapshot db).Nodup).sublist (savedIn_sublist _ _)
      have h1 : (A.savedIn (A.snapshot db) db).count m ≤ 1 := List.nodup_iff_count.1 hnd m
      have h0 : 0 < (A.savedIn (A.snapshot db) db).count m → p ≤ m.rank rank := by
        intro hc
        have hm := List.count_pos_iff.1 hc
        exact hd m ((mem_snapshot hp).1 ((savedIn_sublist _ _).mem hm)) (savedIn_target hP.safe _ hu hm)
      rw [List.count_append]
      cases hs : A.pass db with
      | error e => simp only [List.count_nil]; omega
      | ok db1 =>
        simp only
        obtain ⟨h2, h3, _, h4⟩ := pass_marks hP hp hu hL hs hd
        have := flushSaves_layers hP hp hb n (p + 1) h2 h3 h4 m
        omega

/-! ## Acyclic databases have layers -/

theorem countP_lt {α : Type _} {p q : α → Bool} (hpq : ∀ x, p x = true → q x = true) : ∀ {l : List α} {a : α}, a ∈ l → p a = false →
    q a = true → l.countP p < l.countP q
  | b :: l, a, ha, hp, hq => by
    have hle : l.countP p ≤ l.countP q := List.countP_mono_left fun x _ => hpq x
    rcases List.mem_cons.1 ha with rfl | ha
    · simp [hp, hq]; omega
    · have ih := countP_lt hpq ha hp hq
      simp only [List.countP_cons]
      by_cases h : p b = true
      · simp [h, hpq b h]; omega
      · simp [h]; omega

theorem mem_instances {db : Db} {om : OrmModel} (hom : om ∈ A.models) {o : Row} (ho : o ∈ db.rows om.model.table) :
    (om.model.ct, o om.model.pk) ∈ A.instances db :=
  List.mem_flatMap.2 ⟨om, hom, List.mem_map.2 ⟨o, ho, rfl⟩⟩

open Classical in
/-- The layer of an instance: how many instances it depends on. -/
theorem layered_of_acyclic {db : Db} (ha : Acyclic A D db) :
    Layered A D (fun ct k => (A.instances db).countP fun p => decide (DependsOn A D db p (ct, k))) (A.instances db).length db where
  up := by
    intro dn hdn om hom o ho x hx hf
    have hd : DependsOn A D db (om.model.ct, o om.model.pk) (dn.model.ct, x dn.model.pk) := .direct hdn hom ho hx hf
    exact countP_lt (fun p h => by simp only [decide_eq_true_eq] at h ⊢; exact .trans h hd) (mem_instances hom ho)
      (by simpa using ha _) (by simpa using hd)
  bound := by
    intro om hom o ho
    have := countP_lt (p := fun p => decide (DependsOn A D db p (om.model.ct, o om.model.pk))) (q := fun _ => true)
      (fun _ _ => rfl) (mem_instances hom ho) (by simpa using ha _) rfl
    simpa using this

end
end Denorm
