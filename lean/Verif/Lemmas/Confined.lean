import Verif.Lemmas.Engine
import Verif.Spec.Flush
/-!
# What saving one instance can change
-/
namespace Denorm

/-- Two lists of rows of the same length, related position by position. -/
inductive Pw (R : Row → Row → Prop) : List Row → List Row → Prop where
  | nil : Pw R [] []
  | cons {a b l l'} : R a b → Pw R l l' → Pw R (a :: l) (b :: l')

theorem Pw.refl {R : Row → Row → Prop} (h : ∀ r, R r r) : ∀ l, Pw R l l
  | [] => .nil
  | _ :: l => .cons (h _) (Pw.refl h l)

theorem Pw.trans {R S T : Row → Row → Prop} (h : ∀ a b c, R a b → S b c → T a c) {l1 l2 l3 : List Row} (h1 : Pw R l1 l2)
    (h2 : Pw S l2 l3) : Pw T l1 l3 := by
  induction h1 generalizing l3 with
  | nil => cases h2; exact .nil
  | cons hr _ ih =>
    cases h2 with
    | cons hs h2 => exact .cons (h _ _ _ hr hs) (ih h2)

theorem Pw.imp {R S : Row → Row → Prop} {l l' : List Row} (h : Pw R l l') (hi : ∀ a ∈ l, ∀ b ∈ l', R a b → S a b) : Pw S l l' := by
  induction h with
  | nil => exact .nil
  | cons hr _ ih =>
    exact .cons (hi _ (List.mem_cons_self ..) _ (List.mem_cons_self ..) hr)
      (ih fun a ha b hb => hi a (List.mem_cons_of_mem _ ha) b (List.mem_cons_of_mem _ hb))

theorem Pw.set {R : Row → Row → Prop} {l l' : List Row} (h : Pw R l l') {i : Nat} {x y : Row} (hx : l'[i]? = some x)
    (hy : ∀ a, R a x → R a y) : Pw R l (l'.set i y) := by
  induction h generalizing i with
  | nil => exact .nil
  | cons hr hp ih =>
    cases i with
    | zero =>
      simp only [List.getElem?_cons_zero, Option.some.injEq] at hx
      exact .cons (hy _ (hx ▸ hr)) hp
    | succ i =>
      simp only [List.getElem?_cons_succ] at hx
      exact .cons hr (ih hx)

theorem Pw.right {R : Row → Row → Prop} {l l' : List Row} (h : Pw R l l') {b : Row} (hb : b ∈ l') : ∃ a ∈ l, R a b := by
  induction h with
  | nil => simp at hb
  | cons hr _ ih =>
    rcases List.mem_cons.1 hb with rfl | hb
    · exact ⟨_, List.mem_cons_self .., hr⟩
    · obtain ⟨a, ha, h⟩ := ih hb; exact ⟨a, List.mem_cons_of_mem _ ha, h⟩

theorem Pw.left {R : Row → Row → Prop} {l l' : List Row} (h : Pw R l l') {a : Row} (ha : a ∈ l) : ∃ b ∈ l', R a b := by
  induction h with
  | nil => simp at ha
  | cons hr _ ih =>
    rcases List.mem_cons.1 ha with rfl | ha
    · exact ⟨_, List.mem_cons_self .., hr⟩
    · obtain ⟨b, hb, h⟩ := ih ha; exact ⟨b, List.mem_cons_of_mem _ hb, h⟩

theorem Pw.map_eq {α : Type _} {R : Row → Row → Prop} {l l' : List Row} (h : Pw R l l') {f g : Row → α}
    (hf : ∀ a b, R a b → f a = g b) : l.map f = l'.map g := by
  induction h with
  | nil => rfl
  | cons hr _ ih => simp [hf _ _ hr, ih]

/-- Rows seen through some columns, filtered. -/
theorem Pw.seen_filter {R : Row → Row → Prop} {l l' : List Row} (h : Pw R l l') {p q : Row → Bool} {cols : List Col}
    (hp : ∀ a b, R a b → p a = q b) (hc : ∀ a b, R a b → a ∈ l → p a = true → ∀ c ∈ cols, a c = b c) :
    seen cols (l.filter p) = seen cols (l'.filter q) := by
  induction h with
  | nil => rfl
  | @cons a b l l' hr _ ih =>
    have ih := ih fun a b hr ha => hc a b hr (List.mem_cons_of_mem _ ha)
    by_cases hpa : p a = true
    · have hqb : q b = true := by rw [← hp _ _ hr]; exact hpa
      simp only [List.filter_cons, hpa, hqb, if_true, seen, List.map_cons]
      rw [show (l.filter p).map (fun o => cols.map o) = (l'.filter q).map (fun o => cols.map o) from ih]
      congr 1
      exact List.map_congr_left fun c hcm => hc a b hr (List.mem_cons_self ..) hpa c hcm
    · have hqb : ¬ q b = true := by rw [← hp _ _ hr]; exact hpa
      simpa [hpa, hqb] using ih

theorem Pw.flatMap_filter {β : Type _} {R : Row → Row → Prop} {l l' : List Row} (h : Pw R l l') {p q : Row → Bool}
    {f g : Row → List β} (hp : ∀ a b, R a b → p a = q b) (hf : ∀ a b, R a b → a ∈ l → p a = true → f a = g b) :
    (l.filter p).flatMap f = (l'.filter q).flatMap g := by
  induction h with
  | nil => rfl
  | @cons a b l l' hr _ ih =>
    have ih := ih fun a b hr ha => hf a b hr (List.mem_cons_of_mem _ ha)
    by_cases hpa : p a = true
    · have hqb : q b = true := by rw [← hp _ _ hr]; exact hpa
      simp [hpa, hqb, ih, hf a b hr (List.mem_cons_self ..) hpa]
    · have hqb : ¬ q b = true := by rw [← hp _ _ hr]; exact hpa
      simpa [hpa, hqb] using ih

/-! ## Triggers stay within the columns they can reach -/

/-- All rows agree outside the columns `K`. -/
def SameOutside (K : TableName → Col → Prop) (db db' : Db) : Prop :=
  ∀ t, Pw (fun r r' => ∀ c, ¬ K t c → r' c = r c) (db.rows t) (db'.rows t)

theorem SameOutside.refl (K : TableName → Col → Prop) (db : Db) : SameOutside K db db :=
  fun _ => Pw.refl (fun _ _ _ => rfl) _

theorem SameOutside.trans {K : TableName → Col → Prop} {db1 db2 db3 : Db} (h1 : SameOutside K db1 db2) (h2 : SameOutside K db2 db3) :
    SameOutside K db1 db3 :=
  fun t => (h1 t).trans (fun _ _ _ ha hb c hc => (hb c hc).trans (ha c hc)) (h2 t)

theorem SameOutside.mono {K K' : TableName → Col → Prop} (hK : ∀ t c, K t c → K' t c) {db1 db2 : Db} (h : SameOutside K db1 db2) :
    SameOutside K' db1 db2 :=
  fun t => (h t).imp fun _ _ _ _ hr c hc => hr c fun hk => hc (hK t c hk)

/-- `K` is closed under what triggers do in reaction to changes in `K`. -/
def Closed (E : Engine) (K : TableName → Col → Prop) : Prop :=
  ∀ t c, K t c → ∀ tr ∈ E.triggers, tr.table = t → tr.event = .update → (tr.Unconditional ∨ c ∈ tr.fields) →
    ∀ u, Action.update u ∈ tr.actions → K u.table u.col

/-- Pending work writes only columns in `K`. -/
def Within (K : TableName → Col → Prop) : Item → Prop
  | .write _ t ops => ∃ col, K t col ∧ ∀ op ∈ ops, ∃ i σ, op = .upd i σ ∧ ∀ x r c, c ≠ col → σ x r c = r c
  | .act _ _ (.update u) => K u.table u.col
  | .act .. => True

/-- A trigger that fires on an update watches a changed column, or is unconditional. -/
theorem fires_update {b : Backend} {tr : DbTrigger} {t : TableName} {o n : Row} (he : tr.event = .update)
    (hf : tr.fires b ⟨t, .update, o, n⟩ = true) : tr.Unconditional ∨ ∃ c ∈ tr.fields, o c ≠ n c := by
  by_cases hc : changedCols tr.fields o n = true
  · exact .inr (changedCols_iff.1 hc)
  · refine .inl ?_
    simp only [Bool.not_eq_true] at hc
    simp only [DbTrigger.fires, he, hc] at hf
    cases hctf : tr.ctField with
    | some c => exact .inr (by simp [hctf])
    | none =>
      rw [hctf] at hf
      cases b
      · simp at hf
      · exact .inl (by simpa using hf)
      · simp at hf

theorem within_fired {E : Engine} {K : TableName → Col → Prop} {t : TableName} {o n : Row} {fr : Frame}
    (h : ∀ tr ∈ E.triggers, tr.table = t → tr.event = .update → (tr.Unconditional ∨ ∃ c ∈ tr.fields, o c ≠ n c) →
      ∀ u, Action.update u ∈ tr.actions → K u.table u.col) :
    ∀ it ∈ E.fired fr ⟨t, .update, o, n⟩, Within K it := by
  intro it hit
  obtain ⟨tr, htr, hen, a, ha, rfl⟩ := mem_fired.1 hit
  simp only [Engine.enters, Bool.and_eq_true, decide_eq_true_eq] at hen
  cases a with
  | markValues => trivial
  | markSelect => trivial
  | update u => exact h tr htr hen.1.1.1 hen.1.1.2 (fires_update hen.1.1.2 hen.1.2) u ha

theorem confinedInv {E : Engine} {K : TableName → Col → Prop} (hK : Closed E K) (db0 : Db) :
    StepInv E fun W db => SameOutside K db0 db ∧ ∀ it ∈ W, Within K it where
  perm := fun hp ⟨h1, h2⟩ => ⟨h1, fun it hit => h2 it (hp.mem_iff.2 hit)⟩
  writeNil := fun ⟨h1, h2⟩ => ⟨h1, fun it hit => h2 it (List.mem_cons_of_mem _ hit)⟩
  writeOp := by
    rintro fr t op ops W db ⟨h1, h2⟩
    obtain ⟨col, hcol, hops⟩ := h2 _ (List.mem_cons_self ..)
    obtain ⟨i, σ, rfl, hσ⟩ := hops op (List.mem_cons_self ..)
    have hrest : Within K (.write fr t ops) := ⟨col, hcol, fun op ho => hops op (List.mem_cons_of_mem _ ho)⟩
    have hW : ∀ it ∈ W, Within K it := fun it hit => h2 it (List.mem_cons_of_mem _ hit)
    cases hi : (db.rows t)[i]? with
    | none =>
      simp only [applyOp, hi, List.flatMap_nil, List.nil_append]
      refine ⟨h1, fun it hit => ?_⟩
      rcases List.mem_cons.1 hit with rfl | hit
      · exact hrest
      · exact hW it hit
    | some old =>
      simp only [applyOp, hi, List.flatMap_cons, List.flatMap_nil, List.append_nil]
      refine ⟨fun t' => ?_, fun it hit => ?_⟩
      · by_cases ht : t' = t
        · subst ht
          simp only [Db.setRows_same]
          refine (h1 t').set hi fun a ha c hc => ?_
          rw [hσ _ _ c (fun e => hc (e ▸ hcol))]
          exact ha c hc
        · have : ({ db.setRows t ((db.rows t).set i (σ (E.rand db.draws) old)) with draws := db.draws + 1 } : Db).rows t' =
              db.rows t' := Db.setRows_other _ _ ht
          rw [this]; exact h1 t'
      · rcases List.mem_cons.1 hit with rfl | hit
        · exact hrest
        rcases List.mem_append.1 hit with hit | hit
        · refine within_fired ?_ it hit
          intro tr htr htab hev hc u hu
          refine hK t col hcol tr htr htab hev ?_ u hu
          refine hc.imp id ?_
          rintro ⟨c, hcm, hne⟩
          by_cases hcc : c = col
          · exact hcc ▸ hcm
          · exact absurd (hσ _ _ c hcc).symm hne
        · exact hW it hit
  markValues := fun ⟨h1, h2⟩ => ⟨h1, fun it hit => h2 it (List.mem_cons_of_mem _ hit)⟩
  markSelect := fun ⟨h1, h2⟩ => ⟨h1, fun it hit => h2 it (List.mem_cons_of_mem _ hit)⟩
  update := by
    rintro fr ch u W db _ ⟨h1, h2⟩
    refine ⟨h1, fun it hit => ?_⟩
    rcases List.mem_append.1 hit with hit | hit
    · obtain ⟨l, rfl, hl⟩ := mem_writes hit
      refine ⟨u.col, h2 _ (List.mem_cons_self ..), fun op ho => ?_⟩
      obtain ⟨i, _, rfl⟩ := List.mem_map.1 (hl op ho)
      exact ⟨i, _, rfl, fun x r c hc => by simp [UpdAction.set, Row.set, hc]⟩
    · exact h2 it (List.mem_cons_of_mem _ hit)

end Denorm
