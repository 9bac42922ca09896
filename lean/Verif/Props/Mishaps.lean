import Verif.Props.Views
/-!
# Calls of flush() that fail, in whole projects (C66)
-/
namespace Denorm

section
variable {A : App} {D : List Denorm} {cbs : List Callback} {S : List (TableName × Col)} {rank : Nat → Nat} {L : Nat} {db : Db} {H : Hooks}

theorem inOrder_callsWith (hP : RankedProject A.engine.backend A.models D cbs S rank L) (hE : Installed A.engine D) (ht : H.Truthy cbs) (n : Nat) :
    ∀ (k : Nat) {db : Db}, InOrder A D cbs S db → InOrder A D cbs S (A.callsWith H n k db)
  | 0, _, hI => hI
  | k + 1, _, hI => inOrder_callsWith hP hE ht n k (hP.inOrder_flushWith hE ht hI n)

/-- C66 for projects as in C85, "nothing is lost": a project's own code raises exceptions wherever it likes while flush() is called any number of times. In the end every
`@denormalized` field is right or its instance marked, every aggregate is right, and the next flush() in which nothing raises returns, after `L + 1` passes at most, and makes everything right. -/
theorem C66_project_partial (hP : RankedProject A.engine.backend A.models D cbs S rank L) (hE : Installed A.engine D) (hp : ∀ l, (A.arrange l).Perm l) (hI : InOrder A D cbs S db)
    (ht : H.Truthy cbs) (n k : Nat) : InOrder A D cbs S (A.callsWith H n k db) ∧
      ∃ e N, (∀ m, N ≤ m → (A.limit m).flush (L + 1) (A.callsWith H n k db) = .ok (some e)) ∧ AllRight D cbs e := by
  have hd := inOrder_callsWith hP hE ht n k hI
  obtain ⟨e, N, h1, h2, _⟩ := C85_program hP hE hp hd (cs := []) ⟨fun _ _ => trivial, fun _ _ _ => trivial, fun _ _ _ _ => trivial, hd.unique⟩
  exact ⟨hd, e, N, h1, h2⟩

end

namespace Cart
set_option maxRecDepth 100000

/-- Saving an item raises, after the row has been written: flush() fails, and leaves markers. `C66_project_partial` applies. -/
example (b : Backend) (k : Nat) : ((app b).flushWith grumpy 4 ((app b).calls program emptyDb)).2 = .raised ∧ ((app b).flushWith grumpy 4 ((app b).calls program emptyDb)).1.dirty ≠ [] ∧
    ∃ e N, (∀ m, N ≤ m → ((app b).limit m).flush 4 ((app b).callsWith grumpy 4 k ((app b).calls program emptyDb)) = .ok (some e)) ∧ AllRight decls [amount] e :=
  ⟨by cases b <;> decide +kernel, by cases b <;> decide +kernel,
    (C66_project_partial (A := app b) (works b) (installed b) (fun l => List.Perm.refl l) ((works b).inOrder_calls (A := app b) (installed b) (inOrder_empty b) (cart_legal b))
      (H := grumpy) (fun _ _ _ _ _ _ => rfl) 4 k).2⟩

end Cart
end Denorm
