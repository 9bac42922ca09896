import Verif.Lemmas.Ranked
import Verif.Lemmas.Hooks
import Verif.Spec.Works
/-!
# A flush() that fails keeps the database in order
-/
namespace Denorm

section
variable {A : App} {D : List Denorm} {cbs : List Callback} {S : List (TableName × Col)} {rank : Nat → Nat} {L : Nat} {db db' : Db} {H : Hooks}

/-- What `InOrder` asks besides values that are right or marked. -/
structure Tended (A : App) (D : List Denorm) (S : List (TableName × Col)) (db : Db) : Prop where
  unique : KeysUnique A db
  known : MarksKnown A db
  counts : ∀ a, .aggregate a ∈ D → a.agg = .count → AggOk a db
  sums : ∀ a, .aggregate a ∈ D → ∀ f, a.agg = .sum f → AggOk a db ∧ ∀ t, ∀ r ∈ db.rows t, IntRow S t r

theorem Tended.drop (h : Tended A D S db) (m : Mark) : Tended A D S (db.dropMarks m) :=
  ⟨h.unique, fun m' hm => h.known m' (List.mem_filter.1 hm).1, h.counts, h.sums⟩

theorem Tended.saved (hP : RankedProject A.engine.backend A.models D cbs S rank L) (hE : Installed A.engine D) (h : Tended A D S db) {m : Mark} {om : OrmModel} {r : Row}
    (hc : A.contentObject db m = .ok (some (om, r))) {p : Db × Row} (hs : A.save om r db = .ok p) : Tended A D S p.1 := by
  have hx : A.flushOne m db = .ok (p.1.dropMarks m) := by simp only [App.flushOne, App.saveObject, hc, hs]
  refine ⟨?_, ?_, fun a ha hc => (hP.count_flushOne hE ha hc h.unique (h.counts a ha hc) hx).1, fun a ha f hf => ?_⟩
  · unfold App.contentObject at hc
    cases hf : A.models.find? fun om => om.model.ct == m.ct with
    | none => rw [hf] at hc; cases hc
    | some om' =>
      rw [hf] at hc
      simp only at hc
      cases hr : (db.rows om'.model.table).find? (isRowOf om'.model m.oid) with
      | none => rw [hr] at hc; cases hc
      | some r' =>
        rw [hr] at hc
        cases hc
        exact (kept_save hE hP.this hP.onlyDenorms h.unique (List.mem_of_find?_eq_some hf) hr hs).unique hP.onlyDenorms h.unique
  · obtain ⟨d, mem⟩ := p
    rcases save_issues hs with ⟨_, _, he⟩ | ⟨_, _, _, _, he⟩ <;> exact exec_known (hP.project hE) he h.known
  · have h1 := hP.sum_flushOne hE ha hf h.unique (h.sums a ha f hf).1 (h.sums a ha f hf).2 hx
    exact ⟨h1.1, h1.2.1⟩

theorem Tended.flushOneWith (hP : RankedProject A.engine.backend A.models D cbs S rank L) (hE : Installed A.engine D) (h : Tended A D S db) (m : Mark) :
    Tended A D S (A.flushOneWith H m db).1 := by
  unfold App.flushOneWith
  cases hc : A.contentObject db m with
  | error e => exact h
  | ok o =>
    cases o with
    | none => exact h.drop m
    | some q =>
      obtain ⟨om, r⟩ := q
      simp only
      by_cases h1 : H.truth db om r = true
      · rw [if_pos h1]
        by_cases h2 : H.raises db om r = true
        · rw [if_pos h2]; exact h
        · rw [if_neg h2]
          cases hs : A.save om r db with
          | error e => exact h
          | ok p =>
            have hp := h.saved hP hE hc hs
            simp only
            by_cases h3 : H.late db om r = true
            · rw [if_pos h3]; exact hp
            · rw [if_neg h3]; exact hp.drop m
      · rw [if_neg h1]; exact h.drop m

theorem Tended.flushListWith (hP : RankedProject A.engine.backend A.models D cbs S rank L) (hE : Installed A.engine D) : ∀ (ms : List Mark) {db : Db}, Tended A D S db →
    Tended A D S (A.flushListWith H ms db).1
  | [], _, h => h
  | m :: ms, db, h => by
    have h1 := h.flushOneWith (H := H) hP hE m
    unfold App.flushListWith
    cases hs : A.flushOneWith H m db with
    | mk x b =>
      rw [hs] at h1
      cases b with
      | false => exact Tended.flushListWith hP hE ms h1
      | true => exact h1

theorem Tended.flushWith (hP : RankedProject A.engine.backend A.models D cbs S rank L) (hE : Installed A.engine D) : ∀ (n : Nat) {db : Db}, Tended A D S db →
    Tended A D S (A.flushWith H n db).1
  | n, db, h => by
    unfold App.flushWith
    by_cases hd : db.dirty = []
    · rw [if_pos hd]; exact h
    · rw [if_neg hd]
      cases n with
      | zero => exact h
      | succ n =>
        have h1 := Tended.flushListWith (H := H) hP hE (A.snapshot db) h
        simp only
        cases hs : A.flushListWith H (A.snapshot db) db with
        | mk x b =>
          rw [hs] at h1
          cases b with
          | false => exact Tended.flushWith hP hE n h1
          | true => exact h1

/-- A flush() that returns leaves no marker. -/
theorem flushWith_clean : ∀ (n : Nat) {db : Db}, (A.flushWith H n db).2 = .returned → (A.flushWith H n db).1.dirty = []
  | n, db => by
    unfold App.flushWith
    by_cases hd : db.dirty = []
    · rw [if_pos hd]; exact fun _ => hd
    · rw [if_neg hd]
      cases n with
      | zero => exact fun h => by cases h
      | succ n =>
        simp only
        cases hs : A.flushListWith H (A.snapshot db) db with
        | mk x b =>
          cases b with
          | false => exact flushWith_clean n
          | true => exact fun h => by cases h

/-- However flush() ends, the database stays in order. -/
theorem RankedProject.inOrder_flushWith (hP : RankedProject A.engine.backend A.models D cbs S rank L) (hE : Installed A.engine D)
    (ht : ∀ cb ∈ cbs, ∀ x om r, om.model = cb.model → H.truth x om r = true) (hI : InOrder A D cbs S db) (n : Nat) : InOrder A D cbs S (A.flushWith H n db).1 := by
  have h := Tended.flushWith (H := H) hP hE n ⟨hI.unique, hI.known, hI.counts, hI.sums⟩
  have hg : ∀ cb ∈ cbs, KeysOk cb (A.flushWith H n db).1 ∧ StaleMarked cb (A.flushWith H n db).1 := fun cb hcb => by
    obtain ⟨om, hF⟩ := hP.flushable hE hcb db
    have hs : StaleMarked cb db := staleMarked_iff.2 fun r hr => (hI.marked cb hcb r hr).symm
    have := (good_flushWith (ht cb hcb) n ⟨hF, hI.unique, hI.keys cb hcb, hs⟩ (Eq.refl (A.flushWith H n db))).1
    exact ⟨this.keysOk, this.stale⟩
  exact ⟨h.unique, h.known, fun cb hcb => (hg cb hcb).1, fun cb hcb r hr => (staleMarked_iff.1 (hg cb hcb).2 r hr).symm, h.counts, h.sums⟩

end
end Denorm
