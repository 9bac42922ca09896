import Verif.Code.Trigger
import Std.Data.String.ToNat
/-!
# Trigger names as strings
-/
namespace Denorm

theorem baseName_eq (e : Event) (t : TableName) : baseName e t = "denorm_after_row_" ++ e.str ++ "_on_" ++ t := by
  cases e <;> rfl

theorem String.append_right_inj' {a b c : String} (h : a ++ b = a ++ c) : b = c := by
  have := congrArg String.toList h
  simp only [String.toList_append, List.append_cancel_left_eq] at this
  exact String.toList_inj.1 this

theorem String.append_left_inj' {a b c : String} (h : b ++ a = c ++ a) : b = c := by
  have := congrArg String.toList h
  simp only [String.toList_append, List.append_cancel_right_eq] at this
  exact String.toList_inj.1 this

theorem baseName_inj {e e' : Event} {t t' : TableName} (h : baseName e t = baseName e' t') : e = e' ∧ t = t' := by
  rw [baseName_eq, baseName_eq] at h
  have h1 := congrArg String.toList h
  simp only [String.toList_append] at h1
  cases e <;> cases e' <;> simp [Event.str] at h1 <;> first | exact ⟨rfl, String.toList_inj.1 h1⟩ | skip

theorem split_last {α : Type _} {a : α} {l l' d d' : List α} (hd : a ∉ d) (hd' : a ∉ d') (h : l ++ a :: d = l' ++ a :: d') :
    l = l' ∧ d = d' := by
  rcases List.append_eq_append_iff.1 h with ⟨m, h1, h2⟩ | ⟨m, h1, h2⟩
  · cases m with
    | nil => simp at h1 h2; exact ⟨h1.symm, h2⟩
    | cons x m =>
      simp only [List.cons_append, List.cons.injEq] at h2
      exact absurd (h2.2 ▸ List.mem_append_right _ (List.mem_cons_self ..)) hd
  · cases m with
    | nil => simp at h1 h2; exact ⟨h1, h2.symm⟩
    | cons x m =>
      simp only [List.cons_append, List.cons.injEq] at h2
      exact absurd (h2.2 ▸ List.mem_append_right _ (List.mem_cons_self ..)) hd'

theorem underscore_notin_digits (n : Nat) : '_' ∉ (toString n).toList := by
  intro h
  rw [show toString n = n.repr from rfl, Nat.toList_repr] at h
  have := Nat.isDigit_of_mem_toDigits (by decide) (by decide) h
  exact absurd this (by decide)

theorem suffix_inj {t t' : String} {n n' : Nat} (h : t ++ "_" ++ toString n = t' ++ "_" ++ toString n') : t = t' ∧ n = n' := by
  have h1 := congrArg String.toList h
  simp only [String.toList_append, List.append_assoc] at h1
  obtain ⟨h2, h3⟩ := split_last (underscore_notin_digits n) (underscore_notin_digits n') h1
  exact ⟨String.toList_inj.1 h2, Nat.repr_injective (String.toList_inj.1 h3)⟩

theorem baseName_suffix (e : Event) (t s : String) : baseName e t ++ "_" ++ s = baseName e (t ++ "_" ++ s) := by
  simp only [baseName_eq, String.append_assoc]

end Denorm
