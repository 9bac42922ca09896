import Verif.Lemmas.Marks
/-!
# Markers created while an instance is saved
-/
namespace Denorm

theorem Pw.get {R : Row → Row → Prop} {l l' : List Row} (h : Pw R l l') {i : Nat} {b : Row} (hb : l'[i]? = some b) :
    ∃ a, l[i]? = some a ∧ R a b := by
  induction h generalizing i with
  | nil => simp at hb
  | cons hr _ ih =>
    cases i with
    | zero =>
      simp only [List.getElem?_cons_zero, Option.some.injEq] at hb ⊢
      exact ⟨_, rfl, hb ▸ hr⟩
    | succ i =>
      simp only [List.getElem?_cons_succ] at hb ⊢
      exact ih hb

theorem touched_closed (A : App) : Closed A.engine (Touched A) := by
  rintro t c ⟨om, hom, h⟩ tr htr ht he hc u hu
  refine ⟨om, hom, .inr ?_⟩
  rcases h with ⟨rfl, h⟩ | h
  · exact .direct htr ht he (hc.imp id fun hc => ⟨c, hc, h⟩) hu
  · exact .next h htr ht he hc hu

/-- Equal outside the columns that flushing may change. -/
def Alike (A : App) (t : TableName) (o o' : Row) : Prop := ∀ c, ¬ Touched A t c → o' c = o c

/-- Pending work concerns only rows in `Hot`. -/
def HotItem (A : App) (Hot : TableName → Row → Prop) (db : Db) : Item → Prop
  | .write _ t ops => ∀ i σ, RowOp.upd i σ ∈ ops → ∀ a, (db.rows t)[i]? = some a → Hot t a
  | .act _ ch a => Hot ch.table ch.old ∧ Hot ch.table ch.new ∧ Alike A ch.table ch.new ch.old ∧
      ∃ tr ∈ A.engine.triggers, tr.table = ch.table ∧ tr.event = .update ∧ tr.fires A.engine.backend ch = true ∧ a ∈ tr.actions

/-- `Hot` rows are those that may be written, `Mk` the markers that may be created. -/
structure Spreads (A : App) (D : List Denorm) (Hot : TableName → Row → Prop) (Mk : Mark → Prop) (db0 : Db) : Prop where
  alike : ∀ t o o', Alike A t o o' → Hot t o → Hot t o'
  rows : ∀ db, SameOutside (Touched A) db0 db → ∀ t o, Hot t o → ∀ dn ∈ D, ∀ x ∈ db.rows dn.model.table,
    dn.reaches A.engine.backend db t o x → Hot dn.model.table x
  marks : ∀ db, SameOutside (Touched A) db0 db → ∀ t o, Hot t o → ∀ dn ∈ D, ∀ m, dn.marks A.engine.backend db t o m → Mk m

section
variable {A : App} {D : List Denorm} {Hot : TableName → Row → Prop} {Mk : Mark → Prop} {db0 : Db}

theorem hotItem_mono (hS : Spreads A D Hot Mk db0) {db db' : Db} (h : SameOutside (Touched A) db db') {it : Item}
    (hit : HotItem A Hot db it) : HotItem A Hot db' it := by
  cases it with
  | write fr t ops =>
    intro i σ hm a ha
    obtain ⟨a0, h1, h2⟩ := (h t).get ha
    exact hS.alike t a0 a h2 (hit i σ hm a0 h1)
  | act fr ch a => exact hit

theorem hotItem_rows {db db' : Db} (h : db'.rows = db.rows) {it : Item} (hit : HotItem A Hot db it) : HotItem A Hot db' it := by
  cases it with
  | write fr t ops => intro i σ hm a ha; rw [h] at ha; exact hit i σ hm a ha
  | act fr ch a => exact hit

theorem hotItem_fired {t : TableName} {o n : Row} {fr : Frame} {db : Db} (ho : Hot t o) (hn : Hot t n) (ha : Alike A t n o) :
    ∀ it ∈ A.engine.fired fr ⟨t, .update, o, n⟩, HotItem A Hot db it := by
  intro it hit
  obtain ⟨tr, htr, hen, a, haa, rfl⟩ := mem_fired.1 hit
  simp only [Engine.enters, Bool.and_eq_true, decide_eq_true_eq] at hen
  exact ⟨ho, hn, ha, tr, htr, hen.1.1.1, hen.1.1.2, hen.1.2, haa⟩

/-- What holds while the triggers of a save run. -/
def SpreadInv (A : App) (Hot : TableName → Row → Prop) (Mk : Mark → Prop) (db0 : Db) (W : List Item) (db : Db) : Prop :=
  SameOutside (Touched A) db0 db ∧ (∀ it ∈ W, Within (Touched A) it ∧ HotItem A Hot db it) ∧ ∀ m ∈ db.dirty, m ∈ db0.dirty ∨ Mk m

theorem spread_act (hP : Project A D) (hS : Spreads A D Hot Mk db0) {fr : Frame} {ch : Change} {a : Action} {W : List Item} {db : Db}
    (h : SpreadInv A Hot Mk db0 (.act fr ch a :: W) db) : SpreadInv A Hot Mk db0 W (db.addMarks (a.marks ch db)) := by
  obtain ⟨h1, h2, h3⟩ := h
  refine ⟨h1, fun it hit => ⟨(h2 it (List.mem_cons_of_mem _ hit)).1, hotItem_rows rfl (h2 it (List.mem_cons_of_mem _ hit)).2⟩, ?_⟩
  intro m hm
  rcases List.mem_append.1 hm with hm | hm
  · exact h3 m hm
  · obtain ⟨ho, hn, ha, tr, htr, h4, h5, h6, h7⟩ := (h2 _ (List.mem_cons_self ..)).2
    obtain ⟨dn, hdn, s, hs⟩ := fired_marks hP htr h4 h5 h6 (fun c hc => ha c hc) h7 hm
    refine .inr (hS.marks db h1 _ _ ?_ dn hdn m hs)
    cases s
    · exact hn
    · exact ho

theorem spreadInv (hP : Project A D) (hS : Spreads A D Hot Mk db0) : StepInv A.engine (SpreadInv A Hot Mk db0) where
  perm := fun hp ⟨h1, h2, h3⟩ => ⟨h1, fun it hit => h2 it (hp.mem_iff.2 hit), h3⟩
  writeNil := fun ⟨h1, h2, h3⟩ => ⟨h1, fun it hit => h2 it (List.mem_cons_of_mem _ hit), h3⟩
  writeOp := by
    rintro fr t op ops W db ⟨h1, h2, h3⟩
    have hc := (confinedInv (touched_closed A) db).writeOp (fr := fr) (t := t) (op := op) (ops := ops) (W := W) (db := db)
      ⟨SameOutside.refl _ _, fun it hit => (h2 it hit).1⟩
    have hso := hc.1
    have hd : (applyOp A.engine t op db).1.dirty = db.dirty := by
      cases op with
      | ins r => rfl
      | upd i σ => simp only [applyOp]; cases (db.rows t)[i]? <;> rfl
      | del w => simp only [applyOp]; cases (db.rows t).find? w <;> rfl
    refine ⟨h1.trans hso, fun it hit => ⟨hc.2 it hit, ?_⟩, by rw [hd]; exact h3⟩
    have hhead := (h2 _ (List.mem_cons_self ..)).2
    rcases List.mem_cons.1 hit with rfl | hit
    · refine hotItem_mono hS hso ?_
      intro i σ hm
      exact hhead i σ (List.mem_cons_of_mem _ hm)
    rcases List.mem_append.1 hit with hit | hit
    · obtain ⟨col, hcol, hops⟩ := (h2 _ (List.mem_cons_self ..)).1
      obtain ⟨i, σ, rfl, hσ⟩ := hops op (List.mem_cons_self ..)
      cases hi : (db.rows t)[i]? with
      | none => simp [applyOp, hi] at hit
      | some old =>
        simp only [applyOp, hi, List.flatMap_cons, List.flatMap_nil, List.append_nil] at hit ⊢
        have ho := hhead i σ (List.mem_cons_self ..) old hi
        have ha : Alike A t old (σ (A.engine.rand db.draws) old) := by
          intro c hc'
          exact hσ _ _ c fun e => hc' (e ▸ hcol)
        exact hotItem_fired ho (hS.alike _ _ _ ha ho) (fun c hc' => (ha c hc').symm) it hit
    · exact hotItem_mono hS hso (h2 it (List.mem_cons_of_mem _ hit)).2
  markValues := fun h => spread_act hP hS h
  markSelect := fun h => spread_act hP hS h
  update := by
    rintro fr ch u W db hb ⟨h1, h2, h3⟩
    have hc := (confinedInv (touched_closed A) db).update (fr := fr) (ch := ch) (u := u) (W := W) (db := db) hb
      ⟨SameOutside.refl _ _, fun it hit => (h2 it hit).1⟩
    refine ⟨h1, fun it hit => ⟨hc.2 it hit, ?_⟩, h3⟩
    rcases List.mem_append.1 hit with hit | hit
    · obtain ⟨l, rfl, hl⟩ := mem_writes hit
      intro i σ hm a ha
      obtain ⟨j, hj, he⟩ := List.mem_map.1 (hl _ hm)
      simp only [RowOp.upd.injEq] at he
      obtain ⟨rfl, _⟩ := he
      obtain ⟨r, hr, hw⟩ := mem_targetsOf.1 hj
      rw [hr, Option.some.injEq] at ha
      subst ha
      obtain ⟨ho, hn, hal, tr, htr, h4, h5, h6, h7⟩ := (h2 _ (List.mem_cons_self ..)).2
      obtain ⟨dn, hdn, htab, s, hs⟩ := fired_reaches hP htr h4 h5 h6 (fun c hc => hal c hc) h7 hw
      rw [htab]
      refine hS.rows db h1 _ _ ?_ dn hdn r (htab ▸ List.mem_of_getElem? hr) hs
      cases s
      · exact hn
      · exact ho
    · exact (h2 it (List.mem_cons_of_mem _ hit)).2

/-- The markers after an UPDATE by save(). -/
theorem saveUpdate_marks (hP : Project A D) {om : OrmModel} (hom : om ∈ A.models) {fuel : Nat} {db db' : Db} {mem r : Row}
    (hS : Spreads A D Hot Mk db) (hu : ((db.rows om.model.table).map fun r => r om.model.pk).Nodup) (hr : r ∈ db.rows om.model.table)
    (hk : r om.model.pk = mem om.model.pk) (hn : r om.model.pk ≠ .null)
    (hsame : ∀ c, c ∉ om.denormCols → savedRow om mem r c = r c) (hot : Hot om.model.table r)
    (he : A.engine.exec fuel (saveUpdate om mem) db = .ok db') :
    SameOutside (Touched A) db db' ∧ ∀ m ∈ db'.dirty, m ∈ db.dirty ∨ Mk m := by
  obtain ⟨i, hi⟩ := List.getElem?_of_mem hr
  have hT : targetsOf (db.rows om.model.table) (isRowOf om.model (mem om.model.pk)) = [i] :=
    targetsOf_unique hu hi hk (hk ▸ hn)
  have hstart : A.engine.start (saveUpdate om mem) db = [.write .top om.model.table [.upd i fun _ r => savedRow om mem r]] := by
    simp only [Engine.start, saveUpdate, Stmt.ops, Stmt.table, hT]
    cases A.engine.backend <;> rfl
  rw [Engine.exec, hstart] at he
  have hal : Alike A om.model.table r (savedRow om mem r) := by
    intro c hc
    refine hsame c fun hd => hc ⟨om, hom, .inl ⟨rfl, hd⟩⟩
  cases fuel with
  | zero => simp [Engine.drain] at he
  | succ n =>
    simp only [Engine.drain, Engine.step, applyOps, applyOp, hi, List.append_nil] at he
    have := (spreadInv hP hS).drain _ _ _ _ he ⟨?_, ?_, fun m hm => .inl hm⟩
    · exact ⟨this.1, this.2.2⟩
    · intro t
      by_cases ht : t = om.model.table
      · subst ht
        simp only [Db.setRows_same]
        refine (Pw.refl (R := fun r r' => ∀ c, ¬ Touched A om.model.table c → r' c = r c) (fun _ _ _ => rfl) _).set hi
          fun a ha c hc => ?_
        exact (hal c hc).trans (ha c hc)
      · have : ({ db.setRows om.model.table ((db.rows om.model.table).set i (savedRow om mem r)) with draws := db.draws + 1 } : Db).rows t =
            db.rows t := Db.setRows_other _ _ ht
        rw [this]; exact Pw.refl (fun _ _ _ => rfl) _
    · simp only [List.flatMap_cons, List.flatMap_nil, List.append_nil]
      intro it hit
      refine ⟨within_fired ?_ it hit, hotItem_fired hot (hS.alike _ _ _ hal hot) (fun c hc => (hal c hc).symm) it hit⟩
      intro tr htr htab hev hc u hu'
      refine ⟨om, hom, .inr (.direct htr htab hev (hc.imp id ?_) hu')⟩
      rintro ⟨c, hcm, hne⟩
      exact ⟨c, hcm, Classical.byContradiction fun h => hne (hsame c h).symm⟩

end
end Denorm
