import Verif.Sql.KeyText
/-! # Keys and their texts: reading what was written -/
namespace Denorm

theorem readNat_toDigits (n : Nat) : readNat (Nat.toDigits 10 n) = some n := by
  unfold readNat
  rw [if_pos ⟨Nat.toDigits_ne_nil, by
    rw [List.all_eq_true]
    intro c hc
    exact Nat.isDigit_of_mem_toDigits (by omega) (by omega) hc⟩, Nat.ofDigitChars_ten_toDigits]

theorem toDigits_head (n : Nat) : ∀ ds, Nat.toDigits 10 n ≠ '-' :: ds := by
  intro ds h
  have := Nat.isDigit_of_mem_toDigits (b := 10) (n := n) (c := '-') (by omega) (by omega) (h ▸ List.mem_cons_self ..)
  exact absurd this (by decide)

theorem readInt_intText (i : Int) : readInt (intText i) = some i := by
  unfold intText
  by_cases h : i < 0
  · rw [if_pos h]
    simp only [readInt, readNat_toDigits]
    exact congrArg some (by simp only []; omega)
  · rw [if_neg h]
    unfold readInt
    split
    · next ds he => exact absurd he (toDigits_head _ _)
    · rw [readNat_toDigits]
      exact congrArg some (by simp only []; omega)

theorem hexValue_hexDigit : ∀ d : Fin 16, hexValue (hexDigit d) = some d := by decide

theorem hexDigit_ne_dash : ∀ d : Fin 16, hexDigit d ≠ '-' := by decide

theorem mapM_hex (ds : List (Fin 16)) : (ds.map hexDigit).mapM hexValue = some ds := by
  induction ds with
  | nil => rfl
  | cons d ds ih => rw [List.map_cons, List.mapM_cons, hexValue_hexDigit, ih]; rfl

theorem Uuid.hex_dash (u : Uuid) : u.hex.filter (fun c => c ≠ '-') = u.hex := by
  rw [List.filter_eq_self]
  intro c hc
  obtain ⟨d, -, rfl⟩ := List.mem_map.1 hc
  exact decide_eq_true (hexDigit_ne_dash d)

theorem filter_hex {u : Uuid} {l : Txt} (h : ∀ c ∈ l, c ∈ u.hex) : l.filter (fun c => c ≠ '-') = l := by
  rw [List.filter_eq_self]
  intro c hc
  obtain ⟨d, -, rfl⟩ := List.mem_map.1 (h c hc)
  exact decide_eq_true (hexDigit_ne_dash d)

theorem Uuid.dashed_dash (u : Uuid) : u.dashed.filter (fun c => c ≠ '-') = u.hex := by
  have ht : ∀ n m c, c ∈ (u.hex.drop n).take m → c ∈ u.hex := fun n m c h => List.mem_of_mem_drop (List.mem_of_mem_take h)
  have h0 : ∀ m c, c ∈ u.hex.take m → c ∈ u.hex := fun m c h => List.mem_of_mem_take h
  have hd : ∀ n c, c ∈ u.hex.drop n → c ∈ u.hex := fun n c h => List.mem_of_mem_drop h
  have hdash : ∀ l : Txt, ('-' :: l).filter (fun c => c ≠ '-') = l.filter (fun c => c ≠ '-') := fun l => by simp
  unfold Uuid.dashed
  simp only [List.filter_append, hdash, filter_hex (ht _ _), filter_hex (h0 _), filter_hex (hd _)]
  have e1 : u.hex.drop 20 = ((u.hex.drop 16)).drop 4 := by rw [List.drop_drop]
  have e2 : u.hex.drop 16 = ((u.hex.drop 12)).drop 4 := by rw [List.drop_drop]
  have e3 : u.hex.drop 12 = ((u.hex.drop 8)).drop 4 := by rw [List.drop_drop]
  rw [e1, List.take_append_drop, e2, List.take_append_drop, e3, List.take_append_drop, List.take_append_drop]

theorem readUuid_hex (u : Uuid) : readUuid u.hex = some u := by
  unfold readUuid
  simp only [Uuid.hex_dash]
  rw [Uuid.hex, mapM_hex]
  simp [u.length]

theorem readUuid_dashed (u : Uuid) : readUuid u.dashed = some u := by
  unfold readUuid
  simp only [Uuid.dashed_dash]
  rw [Uuid.hex, mapM_hex]
  simp [u.length]

theorem readUuid_stored (b : Backend) (u : Uuid) : ∃ s, u.stored b = .text s ∧ readUuid s.toList = some u := by
  cases b
  · exact ⟨_, rfl, by rw [String.toList_ofList]; exact readUuid_hex u⟩
  · exact ⟨_, rfl, by rw [String.toList_ofList]; exact readUuid_hex u⟩
  · exact ⟨_, rfl, by rw [String.toList_ofList]; exact readUuid_dashed u⟩

/-- The text a trigger writes leads back to the key. -/
theorem read_asText {b : Backend} {τ : KeyType} {v : Val} (h : τ.Holds b v) : ∃ s, v.asText = some s ∧ τ.read b s = some v := by
  cases τ with
  | integer =>
    obtain ⟨i, rfl⟩ := h
    exact ⟨_, rfl, by simp [KeyType.read, readInt_intText]⟩
  | char =>
    obtain ⟨s, rfl⟩ := h
    exact ⟨_, rfl, by simp [KeyType.read]⟩
  | uuid =>
    obtain ⟨u, rfl⟩ := h
    obtain ⟨s, h1, h2⟩ := readUuid_stored b u
    exact ⟨s.toList, by rw [h1]; rfl, by simp [KeyType.read, h2]⟩

/-- The text rebuildall() writes leads back to the key. -/
theorem read_pythonText {b : Backend} {τ : KeyType} {v : Val} (h : τ.Holds b v) : ∃ s, τ.pythonText v = some s ∧ τ.read b s = some v := by
  cases τ with
  | integer => exact read_asText h
  | char => exact read_asText h
  | uuid =>
    obtain ⟨u, rfl⟩ := h
    obtain ⟨s, h1, h2⟩ := readUuid_stored b u
    exact ⟨u.dashed, by rw [h1]; simp [KeyType.pythonText, h2], by simp [KeyType.read, readUuid_dashed]⟩

theorem holds_ne_null {b : Backend} {τ : KeyType} {v : Val} (h : τ.Holds b v) : v ≠ .null := by
  obtain ⟨s, h1, -⟩ := read_asText h
  rintro rfl
  simp [Val.asText] at h1

/-- Different keys have different texts. -/
theorem asText_inj {b : Backend} {τ : KeyType} {v w : Val} (h : v = .null ∨ τ.Holds b v) (h' : w = .null ∨ τ.Holds b w) (he : v.asText = w.asText) : v = w := by
  rcases h with rfl | h <;> rcases h' with rfl | h'
  · rfl
  · obtain ⟨s, h1, -⟩ := read_asText h'
    rw [h1] at he
    simp [Val.asText] at he
  · obtain ⟨s, h1, -⟩ := read_asText h
    rw [h1] at he
    simp [Val.asText] at he
  · obtain ⟨s, h1, h2⟩ := read_asText h
    obtain ⟨s', h1', h2'⟩ := read_asText h'
    rw [h1, h1', Option.some.injEq] at he
    subst he
    rw [h2, Option.some.injEq] at h2'
    exact h2'

end Denorm
