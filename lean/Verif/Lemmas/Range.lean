import Verif.Lemmas.AggOrder
/-!
# Sums of non-negative numbers
-/
namespace Denorm

/-- At most `n` steps of a running statement. -/
def Engine.walk (E : Engine) : Nat → List Item → Db → List Item × Db
  | 0, W, db => (W, db)
  | _ + 1, [], db => ([], db)
  | n + 1, it :: W, db =>
    match E.step it db with
    | .ok (new, db') => E.walk n (new ++ W) db'
    | .error _ => (it :: W, db)

theorem Engine.reach_walk (E : Engine) : ∀ (n : Nat) (W : List Item) (db : Db), E.Reach W db (E.walk n W db).1 (E.walk n W db).2
  | 0, W, db => .refl _ _
  | n + 1, [], db => .refl _ _
  | n + 1, it :: W, db => by
    simp only [Engine.walk]
    cases h : E.step it db with
    | ok p => exact .step h (E.reach_walk n _ _)
    | error e => exact .refl _ _

/-- After a legal statement there is still no negative number in the summed column. -/
theorem nonneg_exec {E : Engine} {D : List Denorm} {a : AggDenorm} {S : List (TableName × Col)} (hE : Installed E D)
    (hD : AggDeclared E.backend D a) (hN : NoReentry E) (hS : IntClosed E.backend D S) (hm : (a.model.table, a.fieldname) ∈ S)
    (hF : RelevantFree D a) {s : Stmt} {db db' : Db} {W : List Item} (hc : NonNegLegal a s) (hn : ∀ o ∈ db.rows a.related.table, a.NonNeg o)
    (hL : AggLegal a S db s) (hI : ∀ t, ∀ r ∈ db.rows t, IntRow S t r) (hok : AggOk a db) (hr : E.Reach (E.start s db) db W db') :
    ∀ o ∈ db'.rows a.related.table, a.NonNeg o := by
  obtain ⟨rank, hR⟩ := hN.ranked
  have hC : AggCtx E D a S rank := ⟨hE, hD, hR, hS, hm⟩
  have h0 : CountInv E a S rank s (s.ops db) [] db := by
    refine ⟨aggInv_start hL hI hok, hn, ?_⟩
    intro i r hr P hP v hv
    simp only [List.prefix_nil] at hP
    subst hP
    rw [hok r (List.mem_of_getElem? hr)] at hv
    simp only [Val.int.injEq] at hv
    have := total_nonneg hn (r a.model.pk)
    rw [← hv]
    simpa [AggDenorm.effs] using this
  obtain ⟨rest, V, h⟩ := (countInv_ord hC hF hc hL).reach h0 hr
  exact h.nonneg

/-- After a history of legal statements everything is as before. -/
theorem nonneg_run {E : Engine} {D : List Denorm} {a : AggDenorm} {S : List (TableName × Col)} (hE : Installed E D)
    (hD : AggDeclared E.backend D a) (hN : NoReentry E) (hS : IntClosed E.backend D S) (hm : (a.model.table, a.fieldname) ∈ S)
    (hF : RelevantFree D a) (fuel : Nat) : ∀ (ss : List Stmt) (db : Db), AggLegalRun E a S fuel ss db → (∀ s ∈ ss, NonNegLegal a s) →
    (∀ t, ∀ r ∈ db.rows t, IntRow S t r) → (∀ o ∈ db.rows a.related.table, a.NonNeg o) → AggOk a db →
    (∀ t, ∀ r ∈ (E.run fuel ss db).rows t, IntRow S t r) ∧ (∀ o ∈ (E.run fuel ss db).rows a.related.table, a.NonNeg o) ∧
      AggOk a (E.run fuel ss db)
  | [], db, _, _, hI, hn, hok => ⟨hI, hn, hok⟩
  | s :: ss, db, hL, hc, hI, hn, hok => by
    simp only [AggLegalRun] at hL
    simp only [Engine.run]
    have hc' : ∀ s ∈ ss, NonNegLegal a s := fun s hs => hc s (List.mem_cons_of_mem _ hs)
    cases he : E.exec fuel s db with
    | ok db' =>
      rw [he] at hL
      obtain ⟨h1, h2⟩ := agg_exec hE hD hN hS hm hL.1 hI hok he
      have h3 := nonneg_exec hE hD hN hS hm hF (hc s (List.mem_cons_self ..)) hn hL.1 hI hok (Engine.reach_of_drain _ _ _ _ he)
      exact nonneg_run hE hD hN hS hm hF fuel ss db' hL.2 hc' h2 h3 h1
    | error e =>
      rw [he] at hL
      exact nonneg_run hE hD hN hS hm hF fuel ss db hL.2 hc' hI hn hok

end Denorm
