import Verif.Spec.Transactions
import Verif.Lemmas.FlushRun
/-!
# Merging the changes of transactions
-/
namespace Denorm

/-! ## Rows by key -/

/-- The two tables have the same row under key `κ`, or both none. -/
def SameAt (kc : Col) (κ : Val) (rs rs' : List Row) : Prop := ∀ r : Row, r kc = κ → (r ∈ rs ↔ r ∈ rs')

theorem SameAt.refl (kc : Col) (κ : Val) (rs : List Row) : SameAt kc κ rs rs := fun _ _ => Iff.rfl

theorem SameAt.trans {kc : Col} {κ : Val} {a b c : List Row} (h : SameAt kc κ a b) (h' : SameAt kc κ b c) : SameAt kc κ a c :=
  fun r hr => (h r hr).trans (h' r hr)

theorem SameAt.symm {kc : Col} {κ : Val} {a b : List Row} (h : SameAt kc κ a b) : SameAt kc κ b a := fun r hr => (h r hr).symm

theorem eq_of_key {kc : Col} {rs : List Row} (hn : (rs.map fun r => r kc).Nodup) {r r' : Row} (hr : r ∈ rs) (hr' : r' ∈ rs)
    (h : r kc = r' kc) : r = r' := by
  induction rs with
  | nil => simp at hr
  | cons a l ih =>
    rw [List.map_cons, List.nodup_cons] at hn
    rcases List.mem_cons.1 hr with rfl | hr1 <;> rcases List.mem_cons.1 hr' with rfl | hr1'
    · rfl
    · exact absurd (List.mem_map.2 ⟨r', hr1', h.symm⟩) hn.1
    · exact absurd (List.mem_map.2 ⟨r, hr1, h⟩) hn.1
    · exact ih hn.2 hr1 hr1'

theorem rowOf_some {kc : Col} {κ : Val} {rs : List Row} {r : Row} (h : rowOf kc κ rs = some r) : r ∈ rs ∧ r kc = κ :=
  ⟨List.mem_of_find?_eq_some h, by simpa using List.find?_some h⟩

theorem rowOf_none {kc : Col} {κ : Val} {rs : List Row} : rowOf kc κ rs = none ↔ ∀ r ∈ rs, r kc ≠ κ := by
  simp [rowOf]

theorem rowOf_eq {kc : Col} {rs : List Row} (hn : (rs.map fun r => r kc).Nodup) {r : Row} (hr : r ∈ rs) : rowOf kc (r kc) rs = some r := by
  cases h : rowOf kc (r kc) rs with
  | none => exact absurd rfl (rowOf_none.1 h r hr)
  | some r' =>
    obtain ⟨h1, h2⟩ := rowOf_some h
    rw [eq_of_key hn h1 hr h2]

theorem mergeRow_same_view (b r : Row) : mergeRow b b r = r := by
  funext c; simp [mergeRow]

theorem mergeRow_same_cur (b v : Row) : mergeRow b v b = v := by
  funext c
  simp only [mergeRow]
  split
  · rename_i h; exact h.symm
  · rfl

/-- The situation in which the changes of a session are merged into `cur`: keys are unique, and each row has been written by this session or by others, not by both. -/
structure Mergeable (kc : Col) (base view cur : List Row) : Prop where
  nbase : (base.map fun r => r kc).Nodup
  nview : (view.map fun r => r kc).Nodup
  ncur : (cur.map fun r => r kc).Nodup
  apart : ∀ κ, SameAt kc κ base view ∨ SameAt kc κ base cur

section
variable {kc : Col} {base view cur : List Row}

/-- Where a merged row comes from. -/
theorem mem_merge (h : Mergeable kc base view cur) {r : Row} (hr : r ∈ mergeRows kc base view cur) :
    (r ∈ cur ∧ SameAt kc (r kc) base view) ∨ (r ∈ view ∧ SameAt kc (r kc) base cur) := by
  simp only [mergeRows, List.mem_append, List.mem_filterMap, List.mem_filter] at hr
  rcases hr with ⟨rc, hrc, hf⟩ | ⟨hv, hb⟩
  · cases hb : rowOf kc (rc kc) base with
    | none =>
      rw [hb] at hf
      simp only [Option.some.injEq] at hf
      subst hf
      rcases h.apart (rc kc) with h1 | h1
      · exact .inl ⟨hrc, h1⟩
      · exact absurd rfl (rowOf_none.1 hb rc ((h1 rc rfl).2 hrc))
    | some b =>
      obtain ⟨hb1, hb2⟩ := rowOf_some hb
      cases hv : rowOf kc (rc kc) view with
      | none => rw [hb, hv] at hf; simp at hf
      | some v =>
        obtain ⟨hv1, hv2⟩ := rowOf_some hv
        rw [hb, hv] at hf
        simp only [Option.some.injEq] at hf
        rcases h.apart (rc kc) with h1 | h1
        · have : v = b := eq_of_key h.nview hv1 ((h1 b hb2).1 hb1) (hv2.trans hb2.symm)
          rw [this, mergeRow_same_view] at hf
          subst hf
          exact .inl ⟨hrc, h1⟩
        · have : rc = b := eq_of_key h.ncur hrc ((h1 b hb2).1 hb1) hb2.symm
          rw [← this, mergeRow_same_cur] at hf
          subst hf
          rw [hv2]
          exact .inr ⟨hv1, h1⟩
  · have hb' : rowOf kc (r kc) base = none := by simpa using hb
    rcases h.apart (r kc) with h1 | h1
    · exact absurd rfl (rowOf_none.1 hb' r ((h1 r rfl).2 hv))
    · exact .inr ⟨hv, h1⟩

theorem merge_of_cur (h : Mergeable kc base view cur) {r : Row} (hr : r ∈ cur) (hs : SameAt kc (r kc) base view) :
    r ∈ mergeRows kc base view cur := by
  simp only [mergeRows, List.mem_append, List.mem_filterMap]
  refine .inl ⟨r, hr, ?_⟩
  cases hb : rowOf kc (r kc) base with
  | none => rfl
  | some b =>
    obtain ⟨hb1, hb2⟩ := rowOf_some hb
    have hv := rowOf_eq h.nview ((hs b hb2).1 hb1)
    rw [hb2] at hv
    rw [hv]
    simp [mergeRow_same_view]

theorem merge_of_view (h : Mergeable kc base view cur) {r : Row} (hr : r ∈ view) (hs : SameAt kc (r kc) base cur) :
    r ∈ mergeRows kc base view cur := by
  simp only [mergeRows, List.mem_append, List.mem_filterMap, List.mem_filter]
  cases hb : rowOf kc (r kc) base with
  | none => exact .inr ⟨hr, rfl⟩
  | some b =>
    obtain ⟨hb1, hb2⟩ := rowOf_some hb
    refine .inl ⟨b, (hs b hb2).1 hb1, ?_⟩
    rw [hb2, hb, rowOf_eq h.nview hr]
    simp [mergeRow_same_cur]

/-- Where this session has written nothing, the merged table is the current one. -/
theorem merge_sameAt_cur (h : Mergeable kc base view cur) {κ : Val} (hs : SameAt kc κ base view) :
    SameAt kc κ (mergeRows kc base view cur) cur := by
  intro r hr
  subst hr
  refine ⟨fun hm => ?_, fun hc => merge_of_cur h hc hs⟩
  rcases mem_merge h hm with ⟨h1, _⟩ | ⟨h1, h2⟩
  · exact h1
  · exact (h2 r rfl).1 ((hs r rfl).2 h1)

/-- Where others have written nothing, it is what the session sees. -/
theorem merge_sameAt_view (h : Mergeable kc base view cur) {κ : Val} (hs : SameAt kc κ base cur) :
    SameAt kc κ (mergeRows kc base view cur) view := by
  intro r hr
  subst hr
  refine ⟨fun hm => ?_, fun hc => merge_of_view h hc hs⟩
  rcases mem_merge h hm with ⟨h1, h2⟩ | ⟨h1, _⟩
  · exact (h2 r rfl).1 ((hs r rfl).2 h1)
  · exact h1

theorem nodup_filterMap_key {f : Row → Option Row} (hf : ∀ r r', f r = some r' → r' kc = r kc) : ∀ {rs : List Row},
    (rs.map fun r => r kc).Nodup → ((rs.filterMap f).map fun r => r kc).Nodup
  | [], _ => by simp
  | a :: l, h => by
    rw [List.map_cons, List.nodup_cons] at h
    have ih := nodup_filterMap_key hf h.2
    cases ha : f a with
    | none => rw [List.filterMap_cons_none ha]; exact ih
    | some b =>
      rw [List.filterMap_cons_some ha, List.map_cons, List.nodup_cons]
      refine ⟨?_, ih⟩
      intro hm
      obtain ⟨r, hr, hrk⟩ := List.mem_map.1 hm
      obtain ⟨r0, hr0, hf0⟩ := List.mem_filterMap.1 hr
      exact h.1 (List.mem_map.2 ⟨r0, hr0, by rw [← hf _ _ hf0, hrk, hf _ _ ha]⟩)

theorem mergeFn_key {r r' : Row}
    (hf : (match rowOf kc (r kc) base, rowOf kc (r kc) view with
      | none, _ => some r
      | some _, none => none
      | some b, some v => some (mergeRow b v r)) = some r') : r' kc = r kc := by
  cases hb : rowOf kc (r kc) base with
  | none => rw [hb] at hf; simp only [Option.some.injEq] at hf; rw [hf]
  | some b =>
    cases hv : rowOf kc (r kc) view with
    | none => rw [hb, hv] at hf; simp at hf
    | some v =>
      rw [hb, hv] at hf
      simp only [Option.some.injEq] at hf
      subst hf
      have h1 := (rowOf_some hb).2
      have h2 := (rowOf_some hv).2
      simp [mergeRow, h1, h2]

theorem nodup_merge (h : Mergeable kc base view cur) : ((mergeRows kc base view cur).map fun r => r kc).Nodup := by
  rw [mergeRows, List.map_append, List.nodup_append]
  refine ⟨nodup_filterMap_key (fun r r' hf => mergeFn_key hf) h.ncur, ?_, ?_⟩
  · exact (h.nview.sublist ((List.filter_sublist (l := view)).map _))
  · intro κ h1 κ' h2 he
    subst he
    obtain ⟨r, hr, rfl⟩ := List.mem_map.1 h1
    obtain ⟨v, hv, hvk⟩ := List.mem_map.1 h2
    obtain ⟨rc, hrc, hf⟩ := List.mem_filterMap.1 hr
    obtain ⟨hv1, hv2⟩ := List.mem_filter.1 hv
    have hnb : rowOf kc (v kc) base = none := by simpa using hv2
    have hk : rc kc = v kc := (mergeFn_key hf).symm.trans hvk.symm
    rcases h.apart (v kc) with h3 | h3
    · exact rowOf_none.1 hnb v ((h3 v rfl).2 hv1) rfl
    · exact rowOf_none.1 hnb rc ((h3 rc hk).2 hrc) hk

/-- If the session has not changed which rows satisfy `p`, nor `g` of them, neither does merging its changes. -/
theorem merge_filter (h : Mergeable kc base view cur) (p : Row → Bool) {β : Type _} (g : Row → β)
    (hs : ∀ x, x ∈ (view.filter p).map (fun o => (o kc, g o)) ↔ x ∈ (base.filter p).map fun o => (o kc, g o)) :
    ((mergeRows kc base view cur).filter p).map (fun o => (o kc, g o)) = (cur.filter p).map fun o => (o kc, g o) := by
  have fwd : ∀ b ∈ base, p b = true → ∃ v ∈ view, p v = true ∧ v kc = b kc ∧ g v = g b := by
    intro b hb hp
    have : (b kc, g b) ∈ (view.filter p).map fun o => (o kc, g o) := by
      exact (hs _).2 (List.mem_map.2 ⟨b, List.mem_filter.2 ⟨hb, hp⟩, rfl⟩)
    obtain ⟨v, hv, he⟩ := List.mem_map.1 this
    obtain ⟨hv1, hv2⟩ := List.mem_filter.1 hv
    simp only [Prod.mk.injEq] at he
    exact ⟨v, hv1, hv2, he.1, he.2⟩
  have bwd : ∀ v ∈ view, p v = true → ∃ b ∈ base, p b = true ∧ b kc = v kc ∧ g b = g v := by
    intro v hv hp
    have : (v kc, g v) ∈ (base.filter p).map fun o => (o kc, g o) := by
      exact (hs _).1 (List.mem_map.2 ⟨v, List.mem_filter.2 ⟨hv, hp⟩, rfl⟩)
    obtain ⟨b, hb, he⟩ := List.mem_map.1 this
    obtain ⟨hb1, hb2⟩ := List.mem_filter.1 hb
    simp only [Prod.mk.injEq] at he
    exact ⟨b, hb1, hb2, he.1, he.2⟩
  have hins : (view.filter fun v => (rowOf kc (v kc) base).isNone).filter p = [] := by
    rw [List.filter_eq_nil_iff]
    intro v hv hp
    obtain ⟨hv1, hv2⟩ := List.mem_filter.1 hv
    obtain ⟨b, hb, _, hk, _⟩ := bwd v hv1 hp
    exact rowOf_none.1 (by simpa using hv2) b hb hk
  rw [mergeRows, List.filter_append, hins, List.append_nil]
  have key : ∀ l : List Row, (∀ r ∈ l, r ∈ cur) → ((l.filterMap fun r =>
      match rowOf kc (r kc) base, rowOf kc (r kc) view with
      | none, _ => some r
      | some _, none => none
      | some b, some v => some (mergeRow b v r)).filter p).map (fun o => (o kc, g o)) = (l.filter p).map fun o => (o kc, g o) := by
    intro l hl
    induction l with
    | nil => rfl
    | cons r l ih =>
      have ih := ih fun r' hr' => hl r' (List.mem_cons_of_mem _ hr')
      have hr := hl r (List.mem_cons_self ..)
      rw [List.filter_cons]
      cases hb : rowOf kc (r kc) base with
      | none =>
        rw [List.filterMap_cons_some (by rw [hb])]
        rw [List.filter_cons]
        split <;> simp only [List.map_cons, ih]
      | some b =>
        obtain ⟨hb1, hb2⟩ := rowOf_some hb
        cases hv : rowOf kc (r kc) view with
        | none =>
          rw [List.filterMap_cons_none (by rw [hb, hv])]
          have hn := rowOf_none.1 hv
          have hrb : r = b := by
            rcases h.apart (r kc) with h1 | h1
            · exact absurd hb2 (hn b ((h1 b hb2).1 hb1))
            · exact eq_of_key h.ncur hr ((h1 b hb2).1 hb1) hb2.symm
          have hp : ¬ p r = true := by
            intro hp
            obtain ⟨v, hv1, _, hv2, _⟩ := fwd b hb1 (hrb ▸ hp)
            exact hn v hv1 (hv2.trans hb2)
          simp only [hp]
          exact ih
        | some v =>
          obtain ⟨hv1, hv2⟩ := rowOf_some hv
          rw [List.filterMap_cons_some (by rw [hb, hv]), List.filter_cons]
          rcases h.apart (r kc) with h1 | h1
          · have : v = b := eq_of_key h.nview hv1 ((h1 b hb2).1 hb1) (hv2.trans hb2.symm)
            rw [this, mergeRow_same_view]
            split <;> simp only [List.map_cons, ih]
          · have hrb : r = b := eq_of_key h.ncur hr ((h1 b hb2).1 hb1) hb2.symm
            subst hrb
            rw [mergeRow_same_cur]
            by_cases hp : p r = true
            · obtain ⟨v', hv', hpv, hkv, hgv⟩ := fwd r hb1 hp
              have : v' = v := eq_of_key h.nview hv' hv1 (hkv.trans hv2.symm)
              subst this
              simp only [hp, hpv, if_true, List.map_cons, ih, hkv, hgv]
            · have hpv : ¬ p v = true := by
                intro hpv
                obtain ⟨b', hb', hpb, hkb, _⟩ := bwd v hv1 hpv
                rw [eq_of_key h.nbase hb' hb1 (hkb.trans hv2)] at hpb
                exact hp hpb
              simp only [hp, hpv]
              exact ih
  exact key cur fun _ h => h

/-- Conversely: if merging does not change which rows satisfy `p`, nor `g` of them, neither has the session done so. -/
theorem filter_of_merge (h : Mergeable kc base view cur) (p : Row → Bool) {β : Type _} (g : Row → β)
    (hs : ∀ x, x ∈ ((mergeRows kc base view cur).filter p).map (fun o => (o kc, g o)) ↔ x ∈ (cur.filter p).map fun o => (o kc, g o)) :
    ∀ x, x ∈ (view.filter p).map (fun o => (o kc, g o)) ↔ x ∈ (base.filter p).map fun o => (o kc, g o) := by
  intro x
  constructor
  · intro hx
    obtain ⟨v, hv, rfl⟩ := List.mem_map.1 hx
    obtain ⟨hv1, hv2⟩ := List.mem_filter.1 hv
    rcases h.apart (v kc) with h1 | h1
    · exact List.mem_map.2 ⟨v, List.mem_filter.2 ⟨(h1 v rfl).2 hv1, hv2⟩, rfl⟩
    · have := (hs (v kc, g v)).1 (List.mem_map.2 ⟨v, List.mem_filter.2 ⟨merge_of_view h hv1 h1, hv2⟩, rfl⟩)
      obtain ⟨c, hc, he⟩ := List.mem_map.1 this
      obtain ⟨hc1, hc2⟩ := List.mem_filter.1 hc
      simp only [Prod.mk.injEq] at he
      exact List.mem_map.2 ⟨c, List.mem_filter.2 ⟨(h1 c he.1).2 hc1, hc2⟩, by rw [he.1, he.2]⟩
  · intro hx
    obtain ⟨b, hb, rfl⟩ := List.mem_map.1 hx
    obtain ⟨hb1, hb2⟩ := List.mem_filter.1 hb
    rcases h.apart (b kc) with h1 | h1
    · exact List.mem_map.2 ⟨b, List.mem_filter.2 ⟨(h1 b rfl).1 hb1, hb2⟩, rfl⟩
    · have := (hs (b kc, g b)).2 (List.mem_map.2 ⟨b, List.mem_filter.2 ⟨(h1 b rfl).1 hb1, hb2⟩, rfl⟩)
      obtain ⟨m, hm, he⟩ := List.mem_map.1 this
      obtain ⟨hm1, hm2⟩ := List.mem_filter.1 hm
      simp only [Prod.mk.injEq] at he
      exact List.mem_map.2 ⟨m, List.mem_filter.2 ⟨(merge_sameAt_view h h1 m he.1).1 hm1, hm2⟩, by rw [he.1, he.2]⟩

end

end Denorm
