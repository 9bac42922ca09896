import Verif.Lemmas.HeldSum
import Verif.Props.Held
import Verif.Props.Works
/-!
# Instances that hold related objects: SumFields, and layered projects (C86)
-/
namespace Denorm

section
variable {A : App} {D : List Denorm} {cbs : List Callback} {S : List (TableName × Col)} {layer : TableName → Col → Nat} {L : Nat} {db db' : Db} {a : AggDenorm}

/-- C86, SumFields: they are right after every program whose instances hold any related objects, if the program writes numbers where numbers are summed (as in `C62_sum_partial`). -/
theorem C86_sum_partial (hE : Installed A.engine D) (hD : AggDeclared A.engine.backend D a) (hN : NoReentry A.engine) (hS : IntClosed A.engine.backend D S)
    (hm : (a.model.table, a.fieldname) ∈ S) : ∀ (cs : List HeldCall) (db : Db), SumHeld A a S cs db → (∀ t, ∀ r ∈ db.rows t, IntRow S t r) → AggOk a db →
      AggOk a (A.heldCalls cs db) ∧ ∀ t, ∀ r ∈ (A.heldCalls cs db).rows t, IntRow S t r
  | [], _, _, hI, hok => ⟨hok, hI⟩
  | c :: cs, db, hL, hI, hok => by
    obtain ⟨hL1, hL2⟩ := hL
    simp only [App.heldCalls]
    cases h : A.heldCall db c with
    | error e =>
      rw [h] at hL2
      exact C86_sum_partial hE hD hN hS hm cs db hL2 hI hok
    | ok db' =>
      rw [h] at hL2
      obtain ⟨c', hL', hc'⟩ := heldCall_sum hL1 h
      obtain ⟨h1, h2⟩ := sum_call hE hD hN hS hm hL' hc' hI hok
      exact C86_sum_partial hE hD hN hS hm cs db' hL2 h2 h1

theorem LayeredProject.known_heldCalls (hP : LayeredProject A.engine.backend A.models D cbs S layer L) (hE : Installed A.engine D) :
    ∀ (cs : List HeldCall) (db : Db), (∀ c ∈ cs, c.Proper) → MarksKnown A db → MarksKnown A (A.heldCalls cs db)
  | [], _, _, hm => hm
  | c :: cs, db, hc, hm => by
    have hc' : ∀ c ∈ cs, c.Proper := fun c h => hc c (List.mem_cons_of_mem _ h)
    simp only [App.heldCalls]
    cases h : A.heldCall db c with
    | error e => exact LayeredProject.known_heldCalls hP hE cs db hc' hm
    | ok db' =>
      obtain ⟨mem', _, h'⟩ := heldCall_plain (hc c (List.mem_cons_self ..)) h
      exact LayeredProject.known_heldCalls hP hE cs db' hc' (hP.known_call hE h' hm)

/-- C86, a whole project: in a project as in C74 (its fields are computed from plain data, or in `L` layers from each other, with CountFields and SumFields), a program whose instances hold any related
objects leaves the database in order. Afterwards flush() returns, after `L + 2` passes at most and without an error, and then everything is right. -/
theorem C86_layered (hP : LayeredProject A.engine.backend A.models D cbs S layer L) (hE : Installed A.engine D) (hp : ∀ l, (A.arrange l).Perm l)
    (hI : InOrder A D cbs S db) {cs : List HeldCall} (hL : LegalHeldProgram A D cbs S cs db) :
    InOrder A D cbs S (A.heldCalls cs db) ∧
    ∃ db' N, (∀ n, N ≤ n → (A.limit n).flush (L + 2) (A.heldCalls cs db) = .ok (some db')) ∧ AllRight D cbs db' ∧ InOrder A D cbs S db' := by
  have hN := noReentry_of_tables hE hP.thisAll hP.acyclic hP.clear
  have hm : ∀ cb ∈ cbs, KeysOk cb (A.heldCalls cs db) ∧
      ∀ r ∈ (A.heldCalls cs db).rows cb.model.table, r cb.field = cb.value (A.heldCalls cs db) r ∨ Marked cb.model (A.heldCalls cs db) r := fun cb hcb => by
    obtain ⟨om, hF⟩ := hP.flushable hE hcb db
    exact C86_marked_partial hE (hP.wellDeclared hcb) hN (fun om hom => (hP.proper om hom).pk) (fun om hom p hp e => hF.pks om hom p hp e) cs db hL.proper
      (hL.legal cb hcb) (hI.keys cb hcb) (staleMarked_iff.2 fun r hr => (hI.marked cb hcb r hr).symm)
  have hO : InOrder A D cbs S (A.heldCalls cs db) :=
    ⟨hL.unique, hP.known_heldCalls hE cs db hL.proper hI.known, fun cb hcb => (hm cb hcb).1, fun cb hcb => (hm cb hcb).2, fun a ha hc =>
      C86_count hE (hP.counts a ha).1 hN hc cs db hL.proper (hL.counts a ha hc) (hI.counts a ha hc), fun a ha f hf =>
      C86_sum_partial hE (hP.counts a ha).1 hN hP.closed (hP.sums a ha f hf).1 cs db (hL.sums a ha f hf) (hI.sums a ha f hf).2 (hI.sums a ha f hf).1⟩
  exact ⟨hO, C74_program hP hE hp hO (cs := []) ⟨fun _ _ => trivial, fun _ _ _ => trivial, fun _ _ _ _ => trivial, hO.unique⟩⟩

end

namespace Basket
open Demo (row)
set_option maxRecDepth 100000

/-- A basket with two items, amounts and total right: 2 times 3 plus 1 times 20. -/
def fullDb : Db := ⟨fun t =>
  if t = "basket" then [row [("id", .int 1), ("total", .int 26)]]
  else if t = "product" then [row [("id", .int 1), ("price", .int 3)], row [("id", .int 2), ("price", .int 20)]]
  else if t = "item" then [row [("id", .int 1), ("basket_id", .int 1), ("product_id", .int 1), ("quantity", .int 2), ("amount", .int 6)],
    row [("id", .int 2), ("basket_id", .int 1), ("product_id", .int 2), ("quantity", .int 1), ("amount", .int 20)]]
  else [], [], 0⟩

/-- The products with their old prices, as an instance holds them that was loaded before. -/
def oldPrices : Db := ⟨fun t => if t = "product" then [row [("id", .int 1), ("price", .int 1)], row [("id", .int 2), ("price", .int 10)]] else [], [], 0⟩

/-- The second item is bought three times, with the old price; the first item's amount is saved again; a third item is created, with a product that has the old price. -/
def heldItems : List HeldCall :=
  [.save (fun _ => oldPrices) itemOrm (row [("id", .int 2), ("basket_id", .int 1), ("product_id", .int 2), ("quantity", .int 3)]),
    .saveFields (fun _ => oldPrices) itemOrm ["amount"] (row [("id", .int 1), ("basket_id", .int 1), ("product_id", .int 1), ("quantity", .int 2)]),
    .create (fun _ => oldPrices) itemOrm (row [("basket_id", .int 1), ("product_id", .int 2), ("quantity", .int 1)]) (.int 3)]

theorem fullDb_inOrder (b : Backend) : InOrder (app b) decls [amount] S fullDb where
  unique := by unfold KeysUnique; cases b <;> decide
  known := fun m hm => by cases hm
  keys := by unfold KeysOk; decide
  marked := fun cb hcb r hr => .inl (by revert r; rw [List.mem_singleton.1 hcb]; decide)
  counts := by
    intro a ha hc
    simp only [decls, List.mem_cons, List.not_mem_nil, or_false] at ha
    rcases ha with h | h <;> cases h
    cases hc
  sums := by
    intro a ha f hf
    simp only [decls, List.mem_cons, List.not_mem_nil, or_false] at ha
    rcases ha with h | h <;> cases h
    refine ⟨by unfold AggOk; decide, fun t r hr c hc => ?_⟩
    simp only [S, List.mem_cons, Prod.mk.injEq, List.not_mem_nil, or_false] at hc
    rcases hc with ⟨rfl, rfl⟩ | ⟨rfl, rfl⟩ <;> simp only [fullDb] at hr <;> simp at hr <;> (try rcases hr with rfl | rfl) <;> (try subst hr) <;> exact ⟨_, rfl⟩

theorem heldItems_legal (b : Backend) : LegalHeldProgram (app b) decls [amount] S heldItems fullDb where
  proper := by
    intro c hc
    have : itemOrm.Proper := ⟨by decide, by decide⟩
    simp only [heldItems, List.mem_cons, List.not_mem_nil, or_false] at hc
    rcases hc with rfl | rfl | rfl <;> exact this
  legal := by
    intro cb hcb
    rw [List.mem_singleton.1 hcb]
    have l1 : ∀ db, LegalCall (app b) amount db (.save itemOrm (row [("id", .int 2), ("basket_id", .int 1), ("product_id", .int 2), ("quantity", .int 3)])) :=
      fun db => ⟨by simp [app], fun _ => basket_newKey b db (by simp [app]) (by decide)⟩
    have l2 : ∀ db mem, LegalCall (app b) amount db (.create itemOrm mem (.int 3)) := fun db mem => basket_newKey b db (by simp [app]) (by decide)
    have l3 : ∀ db cols mem, LegalCall (app b) amount db (.saveFields itemOrm cols mem) := fun db _ _ => by simp [LegalCall, app]
    refine ⟨l1 _, ?_⟩
    split <;> refine ⟨l3 _ _ _, ?_⟩ <;> split <;> refine ⟨l2 _ _, ?_⟩ <;> split <;> trivial
  counts := by
    intro a ha hc
    simp only [decls, List.mem_cons, List.not_mem_nil, or_false] at ha
    rcases ha with h | h <;> cases h
    cases hc
  sums := by
    intro a ha f hf
    simp only [decls, List.mem_cons, List.not_mem_nil, or_false] at ha
    rcases ha with h | h <;> cases h
    have hA : ∀ mem, itemOrm.Attrs S mem := by
      intro mem f hf hk hS
      simp only [itemOrm, List.mem_cons, List.not_mem_nil, or_false] at hf
      rcases hf with rfl | rfl | rfl | rfl
      · exact absurd hS (by decide)
      · exact absurd hS (by decide)
      · exact absurd hS (by decide)
      · cases hk
    have hP : itemOrm.Proper := ⟨by decide, by decide⟩
    have hH : itemOrm.Holds total := by unfold OrmModel.Holds; decide
    have l2 : ∀ db mem k, SumCall (app b) total S db (.create itemOrm mem k) := fun db mem k => ⟨⟨hP, hH, fun h => absurd h (by decide)⟩, numbers _ (by simp), hA mem⟩
    have hR : ∀ cols mem, (itemOrm.restrict cols).Attrs S mem := fun cols mem f hf => hA mem f (List.mem_filter.1 hf).1
    have hu : ∀ {x : Except CallErr Db}, (match x with
        | .ok d => decide ((d.rows "item").map (fun r => r "id")).Nodup
        | .error _ => true) = true → ∀ d, x = .ok d → itemOrm.Unique d := fun {x} h d e => by rw [e] at h; exact of_decide_eq_true h
    have l3 : ∀ db mem, itemOrm.Unique db → mem "id" ≠ .null → SumCall (app b) total S db (.saveFields itemOrm ["amount"] mem) := fun db mem h h' =>
      ⟨⟨hP, hH, h, h'⟩, numbers _ (by simp), hR _ mem⟩
    refine ⟨⟨⟨hP, hH, by decide, by decide⟩, numbers _ (by simp), hA _⟩, ?_⟩
    split
    · rename_i d hd
      refine ⟨l3 _ _ (hu (by cases b <;> decide +kernel) d hd) (by decide), ?_⟩
      split <;> refine ⟨l2 _ _ _, ?_⟩ <;> split <;> trivial
    · refine ⟨l3 _ _ (by decide) (by decide), ?_⟩
      split <;> refine ⟨l2 _ _ _, ?_⟩ <;> split <;> trivial
  unique := by unfold KeysUnique; cases b <;> decide +kernel

/-- The hypotheses of `C86_sum_partial` and `C86_layered` are met: what was computed with old prices is stored, and the total is the sum of what is stored; after flush() it is 2 times 3 plus 3 times 20 plus 1 times 20. -/
example (b : Backend) : (((app b).heldCalls heldItems fullDb).rows "item").map (fun r => r "amount") = [.int 2, .int 30, .int 10] ∧
    (((app b).heldCalls heldItems fullDb).rows "basket").map (fun r => r "total") = [.int 42] ∧
    (∃ db' N, (∀ n, N ≤ n → ((app b).limit n).flush 3 ((app b).heldCalls heldItems fullDb) = .ok (some db')) ∧ AllRight decls [amount] db') ∧
    ∃ db', (app b).flush 3 ((app b).heldCalls heldItems fullDb) = .ok (some db') ∧ (db'.rows "item").map (fun r => r "amount") = [.int 6, .int 60, .int 20] ∧
      (db'.rows "basket").map (fun r => r "total") = [.int 86] := by
  obtain ⟨_, db', N, h1, h2, _⟩ := C86_layered (A := app b) (works b) rfl (fun l => List.Perm.refl l) (fullDb_inOrder b) (heldItems_legal b)
  exact ⟨by cases b <;> decide +kernel, by cases b <;> decide +kernel, ⟨db', N, h1, h2⟩, flush_of (by cases b <;> decide +kernel)⟩

end Basket

end Denorm
