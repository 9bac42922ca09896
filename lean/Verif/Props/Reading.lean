import Verif.Lemmas.Reading
import Verif.Lemmas.Confluent
import Verif.Props.Returns
import Verif.Props.Confluent
import Verif.Props.FlushViolations
/-!
# flush() may read its markers piece by piece (C81)
-/
namespace Denorm

section
variable {A : App} {D : List Denorm} {om : OrmModel} {cb : Callback} {cbs : List Callback} {db db' : Db}

/-- C81, whatever is read: if flush() handles any markers at all, one after the other, until it finds none left in the table, then every row holds what the
callback returns (for the fields of C01). This includes markers that were deleted meanwhile, and that some are read several times. -/
theorem C81_right_partial (hF : Flushable A D om cb db) (hu : KeysUnique A db) (hK : KeysOk cb db) (hS : StaleMarked cb db) (h : A.Handles db db') :
    db'.dirty = [] ∧ ∀ r ∈ db'.rows cb.model.table, r cb.field = cb.value db' r := by
  obtain ⟨hG, hd⟩ := handles_good h ⟨hF, hu, hK, hS⟩
  refine ⟨hd, fun r hr => Classical.byContradiction fun hne => ?_⟩
  have := hG.stale r hr hne
  simp [Marked, hd] at this

/-- C81, whatever is read: at every moment every out-of-date instance is marked. -/
theorem C81_never_lost_partial (hF : Flushable A D om cb db) (hu : KeysUnique A db) (hK : KeysOk cb db) (hS : StaleMarked cb db) {x : Db}
    (h : A.Meanwhile db x) : ∀ r ∈ x.rows cb.model.table, r cb.field ≠ cb.value x r → Marked cb.model x r :=
  (meanwhile_good h ⟨hF, hu, hK, hS⟩).stale

/-- C81, portions of any size, read in any order, each from the table as it is at that moment: if no instance depends on itself, they come to an end. -/
theorem C81_ends (hP : Project A D) (hu : KeysUnique A db) (ha : Acyclic A D db) :
    ¬ ∃ f : Nat → Db, f 0 = db ∧ ∀ i, A.Portion (f i) (f (i + 1)) := by
  rintro ⟨f, h0, hf⟩
  have key : ∀ x, Acc (fun db' db => A.Portion db db') x → ∀ i, f i ≠ x := by
    intro x hx
    induction hx with
    | intro x _ ih => exact fun i hi => ih (f (i + 1)) (hi ▸ hf i) (i + 1) rfl
  exact key db (portion_acc hP hu (layered_of_acyclic ha)) 0 h0

/-- C81, what reading in portions comes to on sqlite: the first `k` markers of the table are handled, then the first `k` of those that are there then, and
so on until the table is empty. There is no second pass: what the cursor has passed has been deleted, and what is added comes after it. -/
theorem C81_one_pass {k : Nat} (hk : 0 < k) (n : Nat) (db : Db) : A.flushReading k (n + 1) db =
    if db.dirty = [] then .ok (some db)
    else match A.flushList (db.dirty.take k) db with
      | .ok db' => A.flushReading k n db'
      | .error e => .error e := by
  by_cases hd : db.dirty = []
  · simp [App.flushReading, App.readOn, hd]
  · rw [if_neg hd]
    simp only [App.flushReading, App.readOn, List.drop_zero, Nat.zero_add]
    cases hp : db.dirty.take k with
    | nil => simp only [List.take_eq_nil_iff] at hp; exact absurd hp (by simp [hd]; omega)
    | cons m ms =>
      simp only
      have h1 := flushPiece_list (A := A) (m :: ms) (m :: ms).length db
      cases h2 : A.flushPiece (m :: ms) (m :: ms).length db with
      | error e => rw [h2] at h1; simp only [h1]
      | ok x =>
        obtain ⟨s', db'⟩ := x
        rw [h2] at h1
        simp only [h1]
        have h3 := flushPiece_start (A := A) (k := k) (db := db) (db' := db') (s' := s') (by rw [hp]; exact h2)
        rw [List.take_eq_nil_iff] at h3
        rcases h3 with rfl | h3
        · rfl
        · cases n <;> simp [App.readOn, h3]

/-- C81 on sqlite, with portions of `k` rows: if no instance depends on itself, flush() returns, no marker is left and every field is right. -/
theorem C81_sqlite_partial (hP : Project A D) (hb : A.engine.backend = .sqlite) {k : Nat} (hk : 0 < k) (hu : KeysUnique A db)
    (hm : MarksKnown A db) (hT : FlushedTogether A D cbs db) (ha : Acyclic A D db) :
    ∃ M N db', (∀ n, N ≤ n → (A.limit n).flushReading k M db = .ok (some db')) ∧ db'.dirty = [] ∧
      ∀ cb ∈ cbs, ∀ r ∈ db'.rows cb.model.table, r cb.field = cb.value db' r := by
  obtain ⟨M, N, db', h⟩ := readOn_returns hP (fun s db => C51_sqlite hb s db) hk hu hm (layered_of_acyclic ha) 0
  have hh := handles_readOn M 0 (h N (Nat.le_refl _))
  exact ⟨M, N, db', h, handles_clean hh, (handles_together (A := A.limit N) hu (together_limit hT N) hh).2⟩

/-- C81, the same result: whether the markers are read at once or in portions (of any size `k`), every field has the same value in every
instance afterwards. -/
theorem C81_same_values_partial (hP : Project A D) (hu : KeysUnique A db) (hT : FlushedTogether A D cbs db) (ha : Acyclic A D db)
    {k n n' : Nat} {e e' : Db} (h : A.flush n db = .ok (some e)) (h' : A.flushReading k n' db = .ok (some e')) :
    ∀ cb ∈ cbs, cb.column e' = cb.column e := by
  have hh := handles_flush n h
  have hh' := handles_readOn n' 0 h'
  have hL := layered_of_acyclic ha
  have hs := handles_same hP.safe hh hu
  have hs' := handles_same hP.safe hh' hu
  obtain ⟨h1, h2⟩ := handles_together hu hT hh
  obtain ⟨h3, h4⟩ := handles_together hu hT hh'
  have hsol : Solved A A D cbs _ _ e e' := ⟨hP, hP, rfl, h1, h3, layered_same hP hs hL, fun t =>
    (hs t).symm.trans (fun a b c h1 h2 k hk hk' => by rw [h2 k hk', h1 k hk]) (hs' t), h2, h4⟩
  intro cb hcb
  obtain ⟨om, hF, -, -⟩ := hT.each cb hcb
  refine ((hsol.same cb.model.table).map_eq fun a b hab => ?_).symm
  have h5 := pk_untouched hP.safe (List.mem_of_find?_eq_some hF.found)
  rw [hF.model] at h5
  rw [hab.2 cb hcb rfl, hab.1 _ h5 h5]

end

/-! ## The hypotheses are met, and the portions matter -/

namespace Chain
set_option maxRecDepth 100000

/-- The chain on sqlite, with any content, any portion size. -/
example (db : Db) (k : Nat) (hk : 0 < k) (hu : KeysUnique (app .sqlite) db) (h1 : KeysOk label db) (h2 : KeysOk path db)
    (h3 : StaleMarked label db) (h4 : StaleMarked path db) (hm : MarksKnown (app .sqlite) db) :
    ∃ M N db', (∀ n, N ≤ n → ((app .sqlite).limit n).flushReading k M db = .ok (some db')) ∧ db'.dirty = [] ∧
      ∀ cb ∈ [label, path], ∀ r ∈ db'.rows cb.model.table, r cb.field = cb.value db' r :=
  C81_sqlite_partial (project .sqlite _) rfl hk hu hm (together .sqlite _ db h1 h2 h3 h4) (acyclic_any .sqlite _ db)

/-- Here it takes two passes if the three markers are read at once, and one if they are read in portions of two: then the cursor meets the
marker that the first save has added. Both repair the entry and the comment. (Three portions: two markers, one marker, and the empty one that ends the
pass.) -/
example : (match (app .sqlite).flush 1 staleDb with | .ok (some _) => true | _ => false) = false ∧
    (match (app .sqlite).flush 2 staleDb with | .ok (some e) => label.column e == [(.int 1, .text "Z")] && path.column e == [(.int 1, .text "Z")] | _ => false) = true ∧
    (match (app .sqlite).flushReading 2 3 staleDb with | .ok (some e) => label.column e == [(.int 1, .text "Z")] && path.column e == [(.int 1, .text "Z")] | _ => false) = true ∧
    (match (app .sqlite).flushReading 2 2 staleDb with | .ok (some _) => true | _ => false) = false := by
  decide +kernel

end Chain

/-- **C81 is violated** by the fields of C45: the result depends on how many markers are read at once. No instance depends on any other and every
out-of-date value is marked; the instance is marked twice. Read one by one, the second marker is gone before it is read; read together, it
leads to a second save, and only that one makes the field right. -/
theorem C81_violated_portions : ∃ (A : App) (D : List Denorm) (cb1 cb2 : Callback) (db e e' : Db),
    Acyclic A D db ∧ Ready .sqlite A D cb1 db ∧ Ready .sqlite A D cb2 db ∧
    A.flushReading 1 10 db = .ok (some e) ∧ A.flushReading 2 10 db = .ok (some e') ∧ cb2.column e ≠ cb2.column e' := by
  let db : Db := { Order.db with dirty := [⟨21, .int 1⟩, ⟨21, .int 1⟩] }
  have h1 : ∃ e, (Order.app .sqlite Order.badOrm).flushReading 1 10 db = .ok (some e) ∧ Order.label.column e = [(.int 1, .text "A")] :=
    flush_of (by decide +kernel)
  have h2 : ∃ e, (Order.app .sqlite Order.badOrm).flushReading 2 10 db = .ok (some e) ∧ Order.label.column e = [(.int 1, .text "Z")] :=
    flush_of (by decide +kernel)
  obtain ⟨e, h1, h3⟩ := h1
  obtain ⟨e', h2, h4⟩ := h2
  have hu : KeysUnique (Order.app .sqlite Order.badOrm) db := by unfold KeysUnique; decide
  refine ⟨Order.app .sqlite Order.badOrm, Order.decls, Order.upper, Order.label, db, e, e', ?_, ?_, ?_, h1, h2, by rw [h3, h4]; decide⟩
  · intro p hp
    have : ∀ p q, DependsOn (Order.app .sqlite Order.badOrm) Order.decls db p q → False := by
      intro p q h
      induction h with
      | direct k1 k2 k3 k4 k5 =>
        simp only [Order.decls, List.mem_cons, List.not_mem_nil, or_false] at k1
        rcases k1 with rfl | rfl <;> rcases k5 with ⟨d, k6, -⟩ | ⟨a, k6, -⟩ <;>
          simp [Callback.denorm, Denorm.deps, Order.upper, Order.label] at k6
      | trans _ _ k1 _ => exact k1
    exact this p p hp
  · exact ⟨rfl, rfl, Order.wd_upper .sqlite, Order.noReentry .sqlite, ⟨_, List.mem_singleton.2 rfl, rfl, ⟨"upper", .callback Order.upper⟩,
      by simp [Order.badOrm], rfl, rfl⟩, Order.keysSafe .sqlite (.inr rfl), hu, by unfold KeysOk; decide, by unfold StaleMarked; decide⟩
  · exact ⟨rfl, rfl, Order.wd_label .sqlite, Order.noReentry .sqlite, ⟨_, List.mem_singleton.2 rfl, rfl, ⟨"label", .callback Order.label⟩,
      by simp [Order.badOrm], rfl, rfl⟩, Order.keysSafe .sqlite (.inr rfl), hu, by unfold KeysOk; decide, by unfold StaleMarked; decide⟩

end Denorm
