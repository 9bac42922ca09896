import Verif.Spec.Scripts
import Verif.Props.Ranked
import Verif.Lemmas.Mishaps
/-!
# Programs with `atomic()` blocks, exceptions and flush() (C96)
-/
namespace Denorm

section
variable {A : App} {D : List Denorm} {cbs : List Callback} {S : List (TableName × Col)} {rank : Nat → Nat} {L : Nat} {db db' : Db}

/-- However the program ends, the database is in order. -/
theorem inOrder_script (hP : RankedProject A.engine.backend A.models D cbs S rank L) (hE : Installed A.engine D) : ∀ (s : Script) {db : Db}, InOrder A D cbs S db →
    LegalScript A D cbs S s db → (∀ d, A.script s db = .done d → InOrder A D cbs S d) ∧ ∀ d, A.script s db = .raised d → InOrder A D cbs S d
  | .skip, db, hI, _ => ⟨fun d h => by cases h; exact hI, fun d h => by cases h⟩
  | .call c, db, hI, hL => by
    have hc := hP.inOrder_calls hE hI hL
    unfold App.script
    unfold App.calls at hc
    cases hx : A.call db c with
    | ok d =>
      rw [hx] at hc
      exact ⟨fun d' h => by cases h; exact hc, fun d' h => by cases h⟩
    | error e => exact ⟨fun d' h => (by cases h), fun d' h => by cases h; exact hI⟩
  | .calls cs, db, hI, hL => ⟨fun d h => by cases h; exact hP.inOrder_calls hE hI hL, fun d h => by cases h⟩
  | .flush n k, db, hI, _ => by
    unfold App.script
    cases hx : (A.limit n).flush k db with
    | error e => exact ⟨fun d h => (by cases h), fun d h => by cases h⟩
    | ok o =>
      cases o with
      | none => exact ⟨fun d h => (by cases h), fun d h => by cases h⟩
      | some d0 =>
        refine ⟨fun d h => ?_, fun d h => by cases h⟩
        cases h
        have h := RankedProject.inOrder_flush (A := A.limit n) (ranked_limit hP n) hE ⟨hI.unique, hI.known, hI.keys, hI.marked, hI.counts, hI.sums⟩ hx
        exact ⟨h.1.unique, h.1.known, h.1.keys, h.1.marked, h.1.counts, h.1.sums⟩
  | .flushWith H n k, db, hI, hL => by
    have h := RankedProject.inOrder_flushWith (A := A.limit n) (H := H) (ranked_limit hP n) hE hL ⟨hI.unique, hI.known, hI.keys, hI.marked, hI.counts, hI.sums⟩ k
    unfold App.script
    cases hx : (A.limit n).flushWith H k db with
    | mk d0 o =>
      rw [hx] at h
      have h' : InOrder A D cbs S d0 := ⟨h.unique, h.known, h.keys, h.marked, h.counts, h.sums⟩
      cases o with
      | returned => exact ⟨fun d h => by cases h; exact h', fun d h => by cases h⟩
      | raised => exact ⟨fun d h => (by cases h), fun d h => by cases h; exact h'⟩
      | running => exact ⟨fun d h => (by cases h), fun d h => by cases h⟩
  | .raise, db, hI, _ => ⟨fun d h => (by cases h), fun d h => by cases h; exact hI⟩
  | .seq s t, db, hI, hL => by
    have hs := inOrder_script hP hE s hI hL.1
    unfold App.script
    cases hx : A.script s db with
    | done d => exact inOrder_script hP hE t (hs.1 d hx) (hL.2 d hx)
    | raised d => exact ⟨fun d' h => (by cases h), fun d' h => by cases h; exact hs.2 d hx⟩
    | stuck => exact ⟨fun d' h => (by cases h), fun d' h => by cases h⟩
  | .atomic s, db, hI, hL => by
    have hs := inOrder_script hP hE s hI hL
    unfold App.script
    cases hx : A.script s db with
    | done d => exact ⟨fun d' h => by cases h; exact hs.1 d hx, fun d' h => by cases h⟩
    | raised d => exact ⟨fun d' h => (by cases h), fun d' h => by cases h; exact hI⟩
    | stuck => exact ⟨fun d' h => (by cases h), fun d' h => by cases h⟩
  | .handle s t, db, hI, hL => by
    have hs := inOrder_script hP hE s hI hL.1
    unfold App.script
    cases hx : A.script s db with
    | done d => exact ⟨fun d' h => by cases h; exact hs.1 d hx, fun d' h => by cases h⟩
    | raised d => exact inOrder_script hP hE t (hs.2 d hx) (hL.2 d hx)
    | stuck => exact ⟨fun d' h => (by cases h), fun d' h => by cases h⟩

/-- C96 for one session, with flush() anywhere: in a project as in C85, a program makes any calls, in `atomic()` blocks nested as it likes, with exceptions, and calls flush() inside and
outside of the blocks, which may raise as well (a receiver of a signal, a limit of the database). Whether it ends normally or raises: the next flush() returns, after `L + 1` passes at most and without an error, and then everything is right. -/
theorem C96_script (hP : RankedProject A.engine.backend A.models D cbs S rank L) (hE : Installed A.engine D) (hp : ∀ l, (A.arrange l).Perm l)
    (hI : InOrder A D cbs S db) {s : Script} (hL : LegalScript A D cbs S s db) {d : Db} (h : A.script s db = .done d ∨ A.script s db = .raised d) :
    ∃ e N, (∀ n, N ≤ n → (A.limit n).flush (L + 1) d = .ok (some e)) ∧ AllRight D cbs e := by
  have hd : InOrder A D cbs S d := h.elim ((inOrder_script hP hE s hI hL).1 d) ((inOrder_script hP hE s hI hL).2 d)
  obtain ⟨e, N, h1, h2, _⟩ := C85_program hP hE hp hd (cs := []) ⟨fun _ _ => trivial, fun _ _ _ => trivial, fun _ _ _ _ => trivial, hd.unique⟩
  exact ⟨e, N, h1, h2⟩

/-- C96: and before that flush(), every value is right or its instance marked, and all counts are right (`InOrder`). -/
theorem C96_script_inOrder (hP : RankedProject A.engine.backend A.models D cbs S rank L) (hE : Installed A.engine D) (hI : InOrder A D cbs S db) {s : Script}
    (hL : LegalScript A D cbs S s db) {d : Db} (h : A.script s db = .done d ∨ A.script s db = .raised d) : InOrder A D cbs S d :=
  h.elim ((inOrder_script hP hE s hI hL).1 d) ((inOrder_script hP hE s hI hL).2 d)

/-- C96: an `atomic()` block that is left by an exception has changed nothing, even if it has called flush() — no matter whether the program consists of this block, or the block is
nested in others and the exception is caught around it. -/
theorem C96_script_undone {s t : Script} {d : Db} (h : A.script s db = .raised d) :
    A.script (.atomic s) db = .raised db ∧ A.script (.handle (.atomic s) t) db = A.script t db := by
  have h1 : A.script (.atomic s) db = .raised db := by rw [App.script, h]
  exact ⟨h1, by rw [App.script, h1]⟩

end

namespace Cart
set_option maxRecDepth 100000

/-- Give the second product another price, by SQL. -/
def reprice (p : Int) : OrmCall := .stmt (.update "product" (fun r => decide (r "id" = .int 2)) fun _ r => r.set "price" (.int p))

/-- Fill the database; in a block, change a price and call flush(), and then fail; catch that, and change the price again, which is flushed, in a block within a block. -/
def tried : Script :=
  .seq (.calls program) (.seq
    (.handle (.atomic (.seq (.call (reprice 50)) (.seq (.flush 100 4) .raise))) .skip)
    (.atomic (.seq (.atomic (.call (reprice 30))) (.flush 100 4))))

theorem legal_reprice (b : Backend) {p : Int} {db : Db} (hu : KeysUnique (app b) ((app b).calls [reprice p] db)) : LegalProgram (app b) decls [amount] S [reprice p] db where
  legal := by
    intro cb hcb
    rw [List.mem_singleton.1 hcb]
    refine ⟨?_, by split <;> trivial⟩
    have h1 : ∀ p ∈ amount.pks, p.2 = "id" := by decide
    intro p hp _ _ r
    rw [h1 p hp]
    simp [Row.set]
  counts := by
    intro a ha hc
    rcases mem_aggregates.1 ha with rfl | rfl
    · cases hc
    exact ⟨fun h => absurd h (by decide), by split <;> trivial⟩
  sums := by
    intro a ha f hf
    rcases mem_aggregates.1 ha with rfl | rfl
    rotate_left
    · cases hf
    exact ⟨⟨fun x r _ c hc => absurd hc (by simp [S]), fun h => absurd h (by decide)⟩, by split <;> trivial⟩
  unique := hu

/-- A block that cannot end normally, and whose exception is caught, has changed nothing. -/
theorem handled {A : App} {s : Script} {db d : Db} (hs : ∀ d, A.script s db ≠ .done d) (h : A.script (.handle (.atomic s) .skip) db = .done d) : d = db := by
  unfold App.script at h
  cases hx : A.script s db with
  | done d' => exact absurd hx (hs d')
  | raised d' =>
    rw [(C96_script_undone (t := .skip) hx).1] at h
    cases h
    rfl
  | stuck =>
    have : A.script (.atomic s) db = .stuck := by rw [App.script, hx]
    rw [this] at h
    cases h

theorem legal_tried (b : Backend) : LegalScript (app b) decls [amount] S tried emptyDb := by
  refine ⟨cart_legal b, fun d h => ?_⟩
  cases h
  refine ⟨⟨⟨legal_reprice b ?_, fun _ _ => ⟨trivial, fun _ _ => trivial⟩⟩, fun _ _ => trivial⟩, fun d h => ?_⟩
  · unfold KeysUnique; cases b <;> decide +kernel
  · have : d = (app b).calls program emptyDb := by
      refine handled ?_ h
      intro d' h'
      unfold App.script at h'
      cases h1 : (app b).script (.call (reprice 50)) ((app b).calls program emptyDb) with
      | done e =>
        rw [h1] at h'
        simp only [App.script] at h'
        cases h2 : ((app b).limit 100).flush 4 e with
        | error _ => rw [h2] at h'; cases h'
        | ok o => cases o <;> rw [h2] at h' <;> cases h'
      | raised e => rw [h1] at h'; cases h'
      | stuck => rw [h1] at h'; cases h'
    subst this
    refine ⟨legal_reprice b ?_, fun _ _ => trivial⟩
    unfold KeysUnique; cases b <;> decide +kernel

/-- The program ends normally, and a result is as `P` says. -/
theorem ended_of {x : Ending} {P : Db → Prop} [DecidablePred P] (h : (match x with
      | .done d => decide (P d)
      | _ => false) = true) : ∃ d, x = .done d ∧ P d := by
  cases x with
  | done d => exact ⟨d, rfl, by simpa using h⟩
  | raised d => cases h
  | stuck => cases h

theorem inOrder_empty (b : Backend) : InOrder (app b) decls [amount] S emptyDb :=
  ⟨fun om _ => by simp [emptyDb], fun m hm => (by cases hm), fun cb _ p _ r hr => (by cases hr), fun cb _ r hr => (by cases hr), fun a _ _ r hr => (by cases hr),
    fun a _ _ _ => ⟨fun r hr => (by cases hr), fun t r hr => (by cases hr)⟩⟩

/-- `C96_script` applies to this program; it ends with the total for the last price, and the price of the block that failed has left no trace. -/
example (b : Backend) : ∃ d, (app b).script tried emptyDb = .done d ∧ (d.rows "product").map (fun r => r "price") = [.int 3, .int 30] ∧
    (d.rows "cart").map (fun r => r "total") = [.int 36] ∧ ∃ e N, (∀ n, N ≤ n → ((app b).limit n).flush 4 d = .ok (some e)) ∧ AllRight decls [amount] e := by
  obtain ⟨d, h, h1, h2⟩ : ∃ d, (app b).script tried emptyDb = .done d ∧ ((d.rows "product").map (fun r => r "price") = [.int 3, .int 30] ∧
      (d.rows "cart").map (fun r => r "total") = [.int 36]) := ended_of (by cases b <;> decide +kernel)
  exact ⟨d, h, h1, h2, C96_script (A := app b) (works b) (installed b) (fun l => List.Perm.refl l) (inOrder_empty b) (legal_tried b) (.inl h)⟩

/-- Without `atomic()` the price stays. -/
example (b : Backend) : ∃ d, (app b).script (.seq (.calls program) (.handle (.seq (.call (reprice 50)) .raise) .skip)) emptyDb = .done d ∧
    (d.rows "product").map (fun r => r "price") = [.int 3, .int 50] :=
  ended_of (by cases b <;> decide +kernel)

end Cart
end Denorm
