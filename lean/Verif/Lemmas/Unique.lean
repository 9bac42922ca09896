import Verif.Spec.Unique
import Verif.Lemmas.Crew
/-!
# Fields with `unique=True`
-/
namespace Denorm

theorem repeated_false : ∀ {l : List Val}, repeated l = false ↔ l.Pairwise fun x y => x ≠ .null → x ≠ y
  | [] => by simp [repeated]
  | v :: vs => by
    rw [repeated, Bool.or_eq_false_iff, repeated_false (l := vs), List.pairwise_cons]
    refine and_congr_left fun _ => ?_
    rw [Bool.and_eq_false_iff, decide_eq_false_iff_not]
    constructor
    · rintro h y hy hn rfl
      rcases h with h | h
      · exact h hn
      · have := List.contains_iff_mem.2 hy
        rw [h] at this
        exact absurd this (by decide)
    · intro h
      by_cases hn : v = .null
      · exact .inl fun g => g hn
      · refine .inr (Bool.eq_false_iff.2 fun hc => ?_)
        exact h v (List.contains_iff_mem.1 hc) hn rfl

theorem repeated_of {f k : Row → Val} {l : List Row} {a b : Row} (ha : a ∈ l) (hb : b ∈ l) (hk : k a ≠ k b) (hn : f a ≠ .null) (he : f a = f b) :
    repeated (l.map f) = true := by
  cases h : repeated (l.map f) with
  | true => rfl
  | false =>
    rw [repeated_false, List.pairwise_map] at h
    have h2 : ∀ x ∈ l, ∀ y ∈ l, x ≠ y → f x ≠ .null → f x ≠ f y := by
      have hs : l.Pairwise fun x y => f x ≠ .null → f x ≠ f y := h
      intro x hx y hy hxy
      obtain ⟨i, hi, rfl⟩ := List.getElem_of_mem hx
      obtain ⟨j, hj, rfl⟩ := List.getElem_of_mem hy
      rw [List.pairwise_iff_getElem] at hs
      rcases Nat.lt_trichotomy i j with hij | hij | hij
      · exact hs i j hi hj hij
      · subst hij; exact absurd rfl hxy
      · intro hx e
        exact hs j i hj hi hij (e ▸ hx) e.symm
    exact absurd he (h2 a ha b hb (fun e => hk (e ▸ rfl)) hn)

/-- What a save of flush() does to the rows of the field's table. -/
def FieldRel (A : App) (D : List Denorm) (cb : Callback) (m : Mark) (db : Db) (a b : Row) : Prop :=
  StillRel A D cb.model.table a b ∧ b cb.field = if m.ct = cb.model.ct ∧ a cb.model.pk = m.oid then cb.value db a else a cb.field

section
variable {A : App} {D : List Denorm} {om : OrmModel} {cb : Callback} {db db' db0 : Db} {U : List (TableName × Col)}

/-- `pre_save` computes the value from what is stored. -/
theorem unchained_value (hU : Unchained A D om cb) {r mem : Row} (hr : (db.rows om.model.table).find? (isRowOf om.model (r om.model.pk)) = some r)
    (hpre : preSaveAll A om.model db false om.saved r = .ok mem) : mem cb.field = cb.value db r := by
  have hom := List.mem_of_find?_eq_some hU.found
  have hkept := hU.kept om hom
  obtain ⟨pre, post, hsp⟩ := List.append_of_mem hU.saved
  have hnpk : ∀ f ∈ om.saved, f.col ≠ om.model.pk := fun f hf e => hkept (List.mem_map.2 ⟨f, hf, e⟩)
  have hnd := hU.cols
  rw [OrmModel.cols, hsp, List.map_append, List.map_cons] at hnd
  have hpost : ∀ f ∈ post, f.col ≠ cb.field := fun f hf e =>
    (List.nodup_cons.1 (List.nodup_append.1 hnd).2.1).1 (e ▸ List.mem_map.2 ⟨f, hf, rfl⟩)
  rw [hsp] at hpre hnpk
  obtain ⟨rc, hp1, hp2⟩ := preSaveAll_append hpre
  simp only [preSaveAll, SaveField.preSave] at hp2
  rw [preSaveAll_other hp2 cb.field hpost]
  simp only [Row.set, if_true]
  refine value_still hU (fun t => Pw.refl (fun _ _ _ => rfl) _) fun c hc => ?_
  refine preSaveAll_plain hr hp1 rfl (fun f hf => hnpk f (List.mem_append_left _ hf)) c (fun f hf hcomp e => ?_) rfl
  exact hc.2 om hom (hU.model ▸ rfl) (List.mem_map.2 ⟨f, List.mem_filter.2 ⟨hsp ▸ List.mem_append_left _ hf, hcomp⟩, e⟩)

/-- What a save of flush() does. -/
theorem saveObject_rows (hU : Unchained A D om cb) (hu : KeysUnique A db) {m : Mark} (h : A.saveObject m db = .ok db') :
    (∀ t, Pw (StillRel A D t) (db.rows t) (db'.rows t)) ∧ Pw (FieldRel A D cb m db) (db.rows cb.model.table) (db'.rows cb.model.table) := by
  have hcbm := hU.model
  have hom := List.mem_of_find?_eq_some hU.found
  simp only [App.saveObject, App.contentObject] at h
  cases hfind : A.models.find? (fun o => o.model.ct == m.ct) with
  | none => rw [hfind] at h; simp at h
  | some om' =>
    rw [hfind] at h
    have hom' : om' ∈ A.models := List.mem_of_find?_eq_some hfind
    have hct := found_ct hfind
    have hsame : m.ct = cb.model.ct → om' = om := fun e => by
      have hf := hU.found
      rw [← e, hfind] at hf
      exact Option.some.inj hf
    cases hrow : (db.rows om'.model.table).find? (isRowOf om'.model m.oid) with
    | none =>
      simp only [hrow, Except.ok.injEq] at h
      subst h
      refine ⟨fun t => Pw.refl (fun _ _ _ => rfl) _, (Pw.refl (R := fun a b => a = b) (fun _ => rfl) _).imp fun a ha b _ e => ?_⟩
      subst e
      refine ⟨fun _ _ => rfl, ?_⟩
      rw [if_neg]
      rintro ⟨h1, h2⟩
      have := hsame h1
      subst this
      rw [← hcbm] at ha h2
      exact absurd (Val.sqlEq_iff.2 ⟨h2, (hu _ hom').2 a ha⟩) (List.find?_eq_none.1 hrow a ha)
    | some r =>
      simp only [hrow] at h
      cases hs : A.save om' r db with
      | error e => rw [hs] at h; simp at h
      | ok p =>
        rw [hs] at h
        simp only [Except.ok.injEq] at h
        obtain ⟨mem, hpre, hS⟩ := saved_of_save hu hom' (hU.kept om' hom') hrow hs
        have hp1 : p.1 = db' := h
        rw [hp1] at hS
        obtain ⟨hr2, hk⟩ := find_again hrow
        have hrows := save_rows hU.installed (hu om' hom').1 hS.inTable hS.key.symm ((hu om' hom').2 r hS.inTable) hS.exec
        have hstill : ∀ t, Pw (fun a b => StillRel A D t a b ∧ SaveRel D om' mem t a b) (db.rows t) (db'.rows t) := fun t =>
          (hrows t).imp fun a ha b _ hab => ⟨still_saved hab fun ht hk' => by
            subst ht
            rw [row_unique hu hom' ha hS.inTable (by rw [hk', hS.key])]
            exact fun c hc => hS.plain c (hc.2 om' hom' rfl), hab⟩
        refine ⟨fun t => (hstill t).imp fun _ _ _ _ g => g.1, (hstill cb.model.table).imp fun a ha b _ ⟨h1, h2⟩ => ⟨h1, ?_⟩⟩
        have hnw : ¬ Written D cb.model.table cb.field := fun ⟨dn, hdn, g⟩ => hU.field dn hdn g
        by_cases hx : m.ct = cb.model.ct ∧ a cb.model.pk = m.oid
        · rw [if_pos hx]
          have := hsame hx.1
          subst this
          have hak : a om'.model.pk = mem om'.model.pk := by rw [hS.key, hk, hcbm, hx.2]
          have har : a = r := by
            rw [← hcbm] at ha
            exact row_unique hu hom' ha hS.inTable (by rw [hak, hS.key])
          have hcol : cb.field ∈ om'.saved.map SaveField.col := List.mem_map.2 ⟨_, hU.saved, rfl⟩
          rw [h2.saved (by rw [hcbm]) hak _ hnw]
          simp only [savedRow, if_pos hcol]
          rw [har]
          exact unchained_value hU hr2 hpre
        · rw [if_neg hx]
          refine h2.other (fun ht hak => hx ?_) _ hnw
          have := hU.only om' hom' (by rw [hcbm, ht])
          subst this
          rw [hcbm] at hct hak
          exact ⟨hct.symm, by rw [hak, ← hcbm, hS.key, hk]⟩

theorem keysUnique_still (hU : Unchained A D om cb) (hu : KeysUnique A db) (hp : ∀ t, Pw (StillRel A D t) (db.rows t) (db'.rows t)) : KeysUnique A db' := by
  intro om' hom'
  constructor
  · rw [← (hp om'.model.table).map_eq (f := fun r => r om'.model.pk) fun a b hab => (hab _ (hU.keys om' hom')).symm]
    exact (hu om' hom').1
  · intro b hb
    obtain ⟨a, ha, hab⟩ := (hp om'.model.table).right hb
    rw [hab _ (hU.keys om' hom')]
    exact (hu om' hom').2 a ha

/-- How far flush() has come since `db0`. -/
structure Between (A : App) (D : List Denorm) (db0 db : Db) : Prop where
  rows : ∀ t, Pw (StillRel A D t) (db0.rows t) (db.rows t)
  field : ∀ om cb, Unchained A D om cb →
    Pw (fun a b => StillRel A D cb.model.table a b ∧ (b cb.field = a cb.field ∨ b cb.field = cb.value db0 a)) (db0.rows cb.model.table) (db.rows cb.model.table)

theorem Between.start : Between A D db db :=
  ⟨fun _ => Pw.refl (fun _ _ _ => rfl) _, fun _ _ _ => Pw.refl (fun _ => ⟨fun _ _ => rfl, .inl rfl⟩) _⟩

theorem Between.save (hU : Unchained A D om cb) (hu : KeysUnique A db) {m : Mark} (h : A.saveObject m db = .ok db') (hB : Between A D db0 db) :
    Between A D db0 db' := by
  refine ⟨fun t => (hB.rows t).trans (fun a b c h1 h2 col hc => (h2 col hc).trans (h1 col hc)) ((saveObject_rows hU hu h).1 t), fun om' cb' hU' => ?_⟩
  refine (hB.field om' cb' hU').trans ?_ (saveObject_rows hU' hu h).2
  rintro a b c ⟨h1, h2⟩ ⟨h3, h4⟩
  refine ⟨fun col hc => (h3 col hc).trans (h1 col hc), ?_⟩
  by_cases hx : m.ct = cb'.model.ct ∧ b cb'.model.pk = m.oid
  · rw [if_pos hx] at h4
    exact .inr (h4.trans (value_still hU' hB.rows h1))
  · rw [if_neg hx] at h4
    rw [h4]
    exact h2

/-- On the way there are no duplicates. -/
theorem Between.distinct (hu : KeysUnique A db0) (hB : Between A D db0 db) {p : TableName × Col} (hp : SafelyUnique A D db0 p) :
    db.repeats p.1 p.2 = false := by
  rcases hp with ⟨hs, hr⟩ | ⟨om, cb, rfl, hU, hd⟩
  · rw [← hr, Db.repeats, Db.repeats, (hB.rows p.1).map_eq (g := fun r => r p.2) fun a b hab => (hab _ hs).symm]
  · have hpw := hB.field om cb hU
    have hk := (hu om (List.mem_of_find?_eq_some hU.found)).1
    rw [hU.model] at hk
    rw [Db.repeats, repeated_false, List.pairwise_map]
    have : (db0.rows cb.model.table).Pairwise fun a b => ∀ x ∈ [a cb.field, cb.value db0 a], x ≠ .null → x ∉ [b cb.field, cb.value db0 b] := by
      rw [List.nodup_iff_pairwise_ne, List.pairwise_map] at hk
      exact hk.imp_of_mem fun ha hb hne => hd _ ha _ hb hne
    revert this
    generalize db0.rows cb.model.table = l0 at hpw
    generalize db.rows cb.model.table = l at hpw
    induction hpw with
    | nil => intro _; exact .nil
    | cons h1 h2 ih =>
      intro hq
      rw [List.pairwise_cons] at hq ⊢
      refine ⟨fun b hb hn e => ?_, ih hq.2⟩
      obtain ⟨a, ha, _, hab⟩ := h2.right hb
      refine hq.1 a ha _ ?_ hn ?_
      · rcases h1.2 with g | g <;> simp [g]
      · rw [e]; rcases hab with g | g <;> simp [g]

theorem Between.drop {m : Mark} (hB : Between A D db0 db) : Between A D db0 (db.dropMarks m) := ⟨hB.rows, hB.field⟩

/-- The saves of flush() are not refused. -/
theorem flushListUnique_eq (hU : Unchained A D om cb) (h0 : KeysUnique A db0) (hp : ∀ p ∈ U, SafelyUnique A D db0 p) :
    ∀ (ms : List Mark) {db : Db}, KeysUnique A db → Between A D db0 db →
      match A.flushList ms db with
      | .ok db' => A.flushListUnique U ms db = (db', none) ∧ KeysUnique A db' ∧ Between A D db0 db'
      | .error e => (A.flushListUnique U ms db).2 = some (.raised e)
  | [], db, hu, hB => ⟨rfl, hu, hB⟩
  | m :: ms, db, hu, hB => by
    simp only [App.flushList, App.flushOne, App.flushListUnique, App.saveObjectUnique]
    cases h : A.saveObject m db with
    | error e => rfl
    | ok db1 =>
      have hB1 := hB.save hU hu h
      have hu1 := keysUnique_still hU hu (saveObject_rows hU hu h).1
      have hno : U.any (fun p => db1.repeats p.1 p.2) = false := by
        rw [List.any_eq_false]
        intro p hpU
        rw [hB1.distinct h0 (hp p hpU)]
        decide
      simp only [hno, Bool.false_eq_true, if_false]
      exact flushListUnique_eq hU h0 hp ms (db := db1.dropMarks m) hu1 hB1.drop

theorem flushUnique_eq (hU : Unchained A D om cb) (h0 : KeysUnique A db0) (hp : ∀ p ∈ U, SafelyUnique A D db0 p) :
    ∀ (n : Nat) {db : Db}, KeysUnique A db → Between A D db0 db →
      match A.flush n db with
      | .ok (some db') => A.flushUnique U n db = (db', .returned) ∧ Between A D db0 db'
      | .ok none => (A.flushUnique U n db).2 = .running
      | .error e => (A.flushUnique U n db).2 = .raised e
  | n, db, hu, hB => by
    unfold App.flush App.flushUnique
    by_cases hd : db.dirty = []
    · rw [if_pos hd, if_pos hd]
      exact ⟨rfl, hB⟩
    · rw [if_neg hd, if_neg hd]
      cases n with
      | zero => rfl
      | succ n =>
        have h := flushListUnique_eq hU h0 hp (A.snapshot db) hu hB
        simp only [App.pass]
        cases hl : A.flushList (A.snapshot db) db with
        | error e =>
          rw [hl] at h
          cases hq : A.flushListUnique U (A.snapshot db) db with
          | mk x o =>
            rw [hq] at h
            have h : o = some (.raised e) := h
            subst h
            rfl
        | ok db1 =>
          rw [hl] at h
          rw [h.1]
          exact flushUnique_eq hU h0 hp n h.2.1 h.2.2

/-- A value that is taken is refused. -/
theorem taken_refused (hU : Unchained A D om cb) (hu : KeysUnique A db) (hin : (cb.model.table, cb.field) ∈ U) {r : Row} (hr : r ∈ db.rows cb.model.table)
    (ht : cb.Taken db r) {m : Mark} (hm : m = ⟨cb.model.ct, r cb.model.pk⟩) : ∃ o, A.saveObjectUnique U m db = .error o ∧ (o = .integrity ∨ ∃ e, o = .raised e) := by
  simp only [App.saveObjectUnique]
  cases h : A.saveObject m db with
  | error e => exact ⟨_, rfl, .inr ⟨e, rfl⟩⟩
  | ok db1 =>
    obtain ⟨hn, s, hs, hne, hsv⟩ := ht
    have hpw := (saveObject_rows hU hu h).2
    have hpk := hU.model ▸ hU.keys om (List.mem_of_find?_eq_some hU.found)
    obtain ⟨r', hr', hrr, hrv⟩ := hpw.left hr
    obtain ⟨s', hs', hss, hsv'⟩ := hpw.left hs
    rw [hm, if_pos ⟨rfl, rfl⟩] at hrv
    rw [hm, if_neg (fun g => hne g.2)] at hsv'
    have hrep : db1.repeats cb.model.table cb.field = true :=
      repeated_of (k := fun x => x cb.model.pk) hr' hs' (by rw [hrr _ hpk, hss _ hpk]; exact Ne.symm hne) (by rw [hrv]; exact hn) (by rw [hrv, hsv', hsv])
    have : U.any (fun p => db1.repeats p.1 p.2) = true := List.any_eq_true.2 ⟨_, hin, hrep⟩
    simp only [this, if_true]
    exact ⟨_, rfl, .inl rfl⟩

end
end Denorm
