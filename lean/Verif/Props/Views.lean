import Verif.Spec.Views
import Verif.Props.Scripts
import Verif.Props.Hooks
/-!
# Requests whose views are programs (C72)
-/
namespace Denorm

section
variable {A : App} {D : List Denorm} {cbs : List Callback} {S : List (TableName × Col)} {rank : Nat → Nat} {L : Nat} {db db' d : Db} {r : WebRequest}

theorem legal_called (h : LegalScript A D cbs S r.view db) : LegalScript A D cbs S r.called db := by
  unfold WebRequest.called
  cases r.atomic
  · exact h
  · exact h

theorem legal_request (hL : LegalScript A D cbs S r.view db) {H : Hooks} (ht : H.Truthy cbs) (n k : Nat) : LegalScript A D cbs S (r.script H n k) db :=
  ⟨⟨legal_called hL, fun _ _ => trivial⟩, fun _ _ => ⟨ht, fun _ _ => trivial⟩⟩

/-- Requests keep the database in order. -/
theorem inOrder_served (hP : RankedProject A.engine.backend A.models D cbs S rank L) (hE : Installed A.engine D) (hI : InOrder A D cbs S db) (h : Served A D cbs S db db') :
    InOrder A D cbs S db' := by
  induction h with
  | start => exact hI
  | request _ hL ht hr ih => exact C96_script_inOrder hP hE ih (legal_request hL ht _ _) (.inl hr)

/-- C72 for projects as in C85: whatever the requests before did — any calls, in `atomic()` blocks nested as the views like, with exceptions caught and not, and with flush() in between —
and however flush() has ended in them: a request whose view leaves `e`, and whose flush() returns, is answered, and then every `@denormalized` field and every aggregate is right
and nothing is marked. -/
theorem C72_served (hP : RankedProject A.engine.backend A.models D cbs S rank L) (hE : Installed A.engine D) (hI : InOrder A D cbs S db) (h : Served A D cbs S db db')
    (hL : LegalScript A D cbs S r.view db') {H : Hooks} (ht : H.Truthy cbs) {e : Db} (he : A.script r.shown db' = .done e) {n k : Nat}
    (hr : (A.limit n).flushWith H k e = (d, .returned)) : A.script (r.script H n k) db' = .done d ∧ AllRight D cbs d := by
  have hs : A.script (r.script H n k) db' = .done d := by
    unfold WebRequest.script
    simp only [App.script, he, hr]
  have hI' : InOrder A D cbs S d := inOrder_served hP hE hI (.request h hL ht hs)
  have hc : d.dirty = [] := by
    have := flushWith_clean (A := A.limit n) k (H := H) (db := e)
    rw [hr] at this
    exact this rfl
  refine ⟨hs, hc, fun cb hcb r hr => ?_, fun a ha => ?_⟩
  · rcases hI'.marked cb hcb r hr with h | h
    · exact h
    · unfold Marked at h
      rw [hc] at h
      cases h
  · cases hg : a.agg with
    | count => exact hI'.counts a ha hg
    | sum f => exact (hI'.sums a ha f hg).1

/-- C72: nothing is lost for the next request. Whatever the requests did, and however flush() ended in them: if the project's own code raises nothing in the flush() of the next one,
that flush() returns, after `L + 1` passes at most, and everything is right. -/
theorem C72_answered (hP : RankedProject A.engine.backend A.models D cbs S rank L) (hE : Installed A.engine D) (hp : ∀ l, (A.arrange l).Perm l) (hI : InOrder A D cbs S db)
    (h : Served A D cbs S db db') (hL : LegalScript A D cbs S r.view db') {H : Hooks} (ht : ∀ x om r, H.truth x om r = true) (hr : ∀ x om r, H.raises x om r = false)
    (hl : ∀ x om r, H.late x om r = false) {e : Db} (he : A.script r.view db' = .done e ∨ A.script r.view db' = .raised e) :
    ∃ d N, AllRight D cbs d ∧ ∀ n, N ≤ n → A.script (r.script H n (L + 1)) db' = .done d := by
  have hc : ∃ e', A.script r.shown db' = .done e' := by
    unfold WebRequest.shown App.script WebRequest.called
    cases r.atomic with
    | false =>
      rcases he with he | he
      · exact ⟨e, by simp [he]⟩
      · exact ⟨e, by simp [he, App.script]⟩
    | true =>
      rcases he with he | he
      · exact ⟨e, by simp [he, App.script]⟩
      · exact ⟨db', by simp [he, App.script]⟩
  obtain ⟨e', hc⟩ := hc
  have hv : LegalScript A D cbs S r.shown db' := ⟨legal_called hL, fun _ _ => trivial⟩
  obtain ⟨d, N, h1, h2⟩ := C96_script hP hE hp (inOrder_served hP hE hI h) hv (.inl hc)
  refine ⟨d, N, h2, fun n hn => ?_⟩
  unfold WebRequest.script
  simp only [App.script, hc, (C65_plain (A := A.limit n) ht hr hl (L + 1)).2 (h1 n hn)]

/-- C72: with ATOMIC_REQUESTS, a request whose view raises does nothing but flush(). -/
theorem C72_view_undone {e : Db} (ha : r.atomic = true) (he : A.script r.view db = .raised e) (H : Hooks) (n k : Nat) :
    A.script (r.script H n k) db = A.script (.handle (.flushWith H n k) .skip) db := by
  have h : A.script r.shown db = .done db := by
    unfold WebRequest.shown WebRequest.called
    rw [ha, if_pos rfl, (C96_script_undone (t := .skip) he).2]
    rfl
  unfold WebRequest.script
  conv => lhs; unfold App.script
  rw [h]

end

namespace Cart
set_option maxRecDepth 100000

/-- A view that changes a price and raises. -/
def failing (atomic : Bool) : WebRequest := ⟨.seq (.call (reprice 50)) .raise, atomic⟩

/-- The first request fills the database. -/
def filling : WebRequest := ⟨.calls program, false⟩

instance (b : Backend) (d : Db) : Decidable (KeysUnique (app b) d) := by unfold KeysUnique; infer_instance

/-- Nothing happens in between. -/
def quiet : Hooks := ⟨fun _ _ _ => true, fun _ _ _ => false, fun _ _ _ => false⟩

/-- A receiver of `post_save` raises an exception for items. -/
def grumpy : Hooks := ⟨fun _ _ _ => true, fun _ _ _ => false, fun _ om _ => decide (om.model.table = "item")⟩

/-- Two requests: one that fills the database and whose flush() raises, and one whose view raises. `C72_served` and `C72_answered` apply to the second; with ATOMIC_REQUESTS the price
is as before, without it is the new one, and the cart's total goes with it. -/
example (b : Backend) (atomic : Bool) : ∃ d d', Served (app b) decls [amount] S emptyDb d ∧ d.dirty ≠ [] ∧ (app b).script ((failing atomic).script quiet 100 4) d = .done d' ∧
    LegalScript (app b) decls [amount] S (failing atomic).view d ∧ (d'.rows "cart").map (fun r => r "total") = [.int (if atomic then 26 else 56)] := by
  have h1 : ∃ d, (app b).script (filling.script grumpy 100 4) emptyDb = .done d ∧ (d.dirty ≠ [] ∧ KeysUnique (app b) ((app b).calls [reprice 50] d) ∧
      (match (app b).script ((failing atomic).script quiet 100 4) d with
      | .done d' => decide ((d'.rows "cart").map (fun r => r "total") = [.int (if atomic then 26 else 56)])
      | _ => false) = true) := ended_of (by cases b <;> cases atomic <;> decide +kernel)
  obtain ⟨d, h1, h0, h2, h3⟩ := h1
  obtain ⟨d', h4, h5⟩ := ended_of h3
  exact ⟨d, d', .request (r := filling) .start (cart_legal b) (fun _ _ _ _ _ _ => rfl) h1, h0, h4, ⟨legal_reprice b h2, fun _ _ => trivial⟩, h5⟩

end Cart
end Denorm
