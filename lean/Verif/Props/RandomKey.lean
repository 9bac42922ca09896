import Verif.Code.RandomKey
/-!
# The numbers that renew a cache key (C70)
-/
namespace Denorm

/-- The evaluated expression is the one the triggers contain. -/
theorem C70_text (b : Backend) : (randomTerm b).text ++ randomCast b = randomText b := by cases b <;> decide +kernel

/-- On numbers that are multiples of 2^-53 the arithmetic is exact. -/
theorem key_exact (F : Fpu) {b : Backend} (hb : b ≠ .sqlite) {k : Int} (h0 : 0 ≤ k) (h1 : k ≤ 2 ^ 53) :
    (randomTerm b).eval F (k / 2 ^ 53) = ((2 * k - 2 ^ 53 : Int) : Rat) * 2 ^ 10 := by
  have e1 : F.rnd (1 / 2) = 1 / 2 := by
    have := F.small (2 ^ 52) (by decide) (by decide)
    have hq : (((2 ^ 52 : Int) : Rat) / 2 ^ 53) = 1 / 2 := by decide +kernel
    rwa [hq] at this
  have e2 : F.rnd 2 = 2 := F.two
  have e3 : F.rnd ((k : Rat) / 2 ^ 53 - 1 / 2) = ((k - 2 ^ 52 : Int) : Rat) / 2 ^ 53 := by
    have : (k : Rat) / 2 ^ 53 - 1 / 2 = ((k - 2 ^ 52 : Int) : Rat) / 2 ^ 53 := by
      rw [Rat.intCast_sub]; grind
    rw [this]
    exact F.small _ (by omega) (by omega)
  have e4 : F.rnd (((k - 2 ^ 52 : Int) : Rat) / 2 ^ 53 * 2) = ((2 * k - 2 ^ 53 : Int) : Rat) / 2 ^ 53 := by
    have : ((k - 2 ^ 52 : Int) : Rat) / 2 ^ 53 * 2 = ((2 * k - 2 ^ 53 : Int) : Rat) / 2 ^ 53 := by
      simp only [Rat.intCast_sub, Rat.intCast_mul]; grind
    rw [this]
    exact F.small _ (by omega) (by omega)
  have e5 : F.rnd (2 ^ 63 * (((2 * k - 2 ^ 53 : Int) : Rat) / 2 ^ 53)) = ((2 * k - 2 ^ 53 : Int) : Rat) * 2 ^ 10 := by
    have : (2 : Rat) ^ 63 * (((2 * k - 2 ^ 53 : Int) : Rat) / 2 ^ 53) = ((2 * k - 2 ^ 53 : Int) : Rat) * 2 ^ 10 := by grind
    rw [this]
    exact F.big _ (by omega) (by omega)
  cases b with
  | sqlite => exact absurd rfl hb
  | postgresql => simp only [randomTerm, RTerm.eval, e1, e2, e3, e4]; exact (by rw [show F.rnd ((9223372036854775806 : Nat) : Rat) = 2 ^ 63 from F.near, e5])
  | mysql => simp only [randomTerm, RTerm.eval, e1, e2, e3, e4]; exact (by rw [show F.rnd ((9223372036854775806 : Nat) : Rat) = 2 ^ 63 from F.near, e5])

/-- The arithmetic keeps the order of the random numbers. -/
theorem key_mono (F : Fpu) {b : Backend} (hb : b ≠ .sqlite) {x y : Rat} (h : x ≤ y) : (randomTerm b).eval F x ≤ (randomTerm b).eval F y := by
  have key : ∀ {u v : Rat}, u ≤ v → F.rnd (2 ^ 63 * F.rnd (F.rnd (u - F.rnd (1 / 2)) * F.rnd 2)) ≤ F.rnd (2 ^ 63 * F.rnd (F.rnd (v - F.rnd (1 / 2)) * F.rnd 2)) := by
    intro u v huv
    have h1 : F.rnd (u - F.rnd (1 / 2)) ≤ F.rnd (v - F.rnd (1 / 2)) := F.mono (by grind)
    have h2 : F.rnd (F.rnd (u - F.rnd (1 / 2)) * F.rnd 2) ≤ F.rnd (F.rnd (v - F.rnd (1 / 2)) * F.rnd 2) := F.mono (by rw [F.two]; grind)
    exact F.mono (by grind)
  cases b with
  | sqlite => exact absurd rfl hb
  | postgresql => simp only [randomTerm, RTerm.eval, show F.rnd ((9223372036854775806 : Nat) : Rat) = 2 ^ 63 from F.near]; exact key h
  | mysql => simp only [randomTerm, RTerm.eval, show F.rnd ((9223372036854775806 : Nat) : Rat) = 2 ^ 63 from F.near]; exact key h

theorem rint_exact (F : Fpu) {b : Backend} (hb : b ≠ .sqlite) {k : Int} (h0 : 0 ≤ k) (h1 : k ≤ 2 ^ 53) :
    F.rint ((randomTerm b).eval F (k / 2 ^ 53)) = (2 * k - 2 ^ 53) * 2 ^ 10 := by
  rw [key_exact F hb h0 h1]
  have : ((2 * k - 2 ^ 53 : Int) : Rat) * 2 ^ 10 = (((2 * k - 2 ^ 53) * 2 ^ 10 : Int) : Rat) := by simp only [Rat.intCast_mul]; rfl
  rw [this, F.rintInt]

/-- The position of a draw between two multiples of 2^-53, from which the key follows. -/
theorem key_between (F : Fpu) {b : Backend} (hb : b ≠ .sqlite) {x : Rat} {i j : Int} (hi : 0 ≤ i) (hj : j ≤ 2 ^ 53) (hij : i ≤ j) (h1 : (i : Rat) / 2 ^ 53 ≤ x) (h2 : x ≤ (j : Rat) / 2 ^ 53) :
    (2 * i - 2 ^ 53) * 2 ^ 10 ≤ F.rint ((randomTerm b).eval F x) ∧ F.rint ((randomTerm b).eval F x) ≤ (2 * j - 2 ^ 53) * 2 ^ 10 := by
  rw [← rint_exact F hb hi (by omega), ← rint_exact F hb (by omega : 0 ≤ j) hj]
  exact ⟨F.rintMono (key_mono F hb h1), F.rintMono (key_mono F hb h2)⟩

theorem rat_le {a c : Int} (h : a * 1073741823 ≤ c * 2 ^ 53) : (a : Rat) / 2 ^ 53 ≤ (c : Rat) / 1073741823 := by
  have h' : ((a * 1073741823 : Int) : Rat) ≤ ((c * 2 ^ 53 : Int) : Rat) := Rat.intCast_le_intCast.2 h
  simp only [Rat.intCast_mul] at h'
  have e1 : ((1073741823 : Int) : Rat) = 1073741823 := rfl
  have e2 : ((2 ^ 53 : Int) : Rat) = 2 ^ 53 := by decide +kernel
  rw [e1, e2] at h'
  grind

theorem rat_ge {a c : Int} (h : c * 2 ^ 53 ≤ a * 1073741823) : (c : Rat) / 1073741823 ≤ (a : Rat) / 2 ^ 53 := by
  have h' : ((c * 2 ^ 53 : Int) : Rat) ≤ ((a * 1073741823 : Int) : Rat) := Rat.intCast_le_intCast.2 h
  simp only [Rat.intCast_mul] at h'
  have e1 : ((1073741823 : Int) : Rat) = 1073741823 := rfl
  have e2 : ((2 ^ 53 : Int) : Rat) = 2 ^ 53 := by decide +kernel
  rw [e1, e2] at h'
  grind

/-- MySQL's draws: where they lie among the multiples of 2^-53. -/
theorem mysql_between (F : Fpu) {k i j : Int} (hi : 0 ≤ i) (hij : i ≤ j) (hj : j ≤ 2 ^ 53) (h1 : i * 1073741823 ≤ k * 2 ^ 53) (h2 : k * 2 ^ 53 ≤ j * 1073741823) :
    (i : Rat) / 2 ^ 53 ≤ randomCall F .mysql k ∧ randomCall F .mysql k ≤ (j : Rat) / 2 ^ 53 := by
  simp only [randomCall]
  rw [← F.small i (by omega) (by omega), ← F.small j (by omega) hj]
  exact ⟨F.mono (rat_le h1), F.mono (rat_ge h2)⟩

theorem sqlite_rint (F : Fpu) (k : Int) : F.rint ((randomTerm .sqlite).eval F (randomCall F .sqlite k)) = k := F.rintInt k

theorem postgresql_rint (F : Fpu) {k : Int} (h : Draw .postgresql k) :
    F.rint ((randomTerm .postgresql).eval F (randomCall F .postgresql k)) = (2 * k - 2 ^ 53) * 2 ^ 10 :=
  rint_exact F (by decide) h.1 (Int.le_of_lt h.2)

theorem mysql_rint (F : Fpu) {k : Int} (h : Draw .mysql k) : ∃ i j : Int, 0 ≤ i ∧ j < 2 ^ 53 ∧ i ≤ j ∧
    k * 2 ^ 53 - 1073741823 < i * 1073741823 ∧ i * 1073741823 ≤ k * 2 ^ 53 ∧ k * 2 ^ 53 ≤ j * 1073741823 ∧ j * 1073741823 < k * 2 ^ 53 + 1073741823 ∧
    (2 * i - 2 ^ 53) * 2 ^ 10 ≤ F.rint ((randomTerm .mysql).eval F (randomCall F .mysql k)) ∧
    F.rint ((randomTerm .mysql).eval F (randomCall F .mysql k)) ≤ (2 * j - 2 ^ 53) * 2 ^ 10 := by
  obtain ⟨h0, h1⟩ := h
  refine ⟨k * 2 ^ 53 / 1073741823, (k * 2 ^ 53 + 1073741822) / 1073741823, by omega, by omega, by omega, by omega, by omega, by omega, by omega, ?_⟩
  obtain ⟨l, u⟩ := mysql_between F (k := k) (i := k * 2 ^ 53 / 1073741823) (j := (k * 2 ^ 53 + 1073741822) / 1073741823) (by omega) (by omega) (by omega) (by omega) (by omega)
  exact key_between F (by decide) (by omega) (by omega) (by omega) l u

/-- C70: the number that a trigger writes fits into the column of the cache key, whatever is drawn: the UPDATE is never refused. -/
theorem C70_fits (F : Fpu) (b : Backend) {k : Int} (h : Draw b k) : ∃ v, newKey F b k = some v ∧ -2 ^ 63 ≤ v ∧ v < 2 ^ 63 := by
  suffices hs : -2 ^ 63 ≤ F.rint ((randomTerm b).eval F (randomCall F b k)) ∧ F.rint ((randomTerm b).eval F (randomCall F b k)) < 2 ^ 63 from
    ⟨_, if_pos hs, hs⟩
  cases b with
  | sqlite => rw [sqlite_rint]; exact h
  | postgresql => rw [postgresql_rint F h]; have := h.1; have := h.2; omega
  | mysql => obtain ⟨i, j, h1, h2, -, -, -, -, -, h3, h4⟩ := mysql_rint F h; omega

/-- C70: different draws are different keys. (Nothing is lost in the arithmetic.) -/
theorem C70_distinct (F : Fpu) (b : Backend) {k k' : Int} (h : Draw b k) (h' : Draw b k') (hn : k ≠ k') : newKey F b k ≠ newKey F b k' := by
  obtain ⟨v, hv, -⟩ := C70_fits F b h
  obtain ⟨v', hv', -⟩ := C70_fits F b h'
  have e : ∀ {k v}, newKey F b k = some v → v = F.rint ((randomTerm b).eval F (randomCall F b k)) := by
    intro k v h
    unfold newKey storeBigint at h
    split at h
    · exact (Option.some.inj h).symm
    · cases h
  rw [hv, hv', e hv, e hv', ne_eq, Option.some.injEq]
  cases b with
  | sqlite => rw [sqlite_rint, sqlite_rint]; exact hn
  | postgresql => rw [postgresql_rint F h, postgresql_rint F h']; omega
  | mysql =>
    obtain ⟨i, j, a1, a2, a3, a4, a5, a6, a7, a8, a9⟩ := mysql_rint F h
    obtain ⟨i', j', b1, b2, b3, b4, b5, b6, b7, b8, b9⟩ := mysql_rint F h'
    omega

/-- C70: so does the number that save() draws. -/
theorem C70_python (k : Int) (h : pyKey k) : -2 ^ 63 ≤ k ∧ k < 2 ^ 63 := by
  unfold pyKey at h; omega

/-! ## Examples -/

/-- An arithmetic that meets the assumptions: exact, except between the two greatest doubles up to 2^63. -/
def coarse : Fpu where
  rnd x := if 9223372036854774784 < x ∧ x < 9223372036854775808 then 9223372036854775808 else x
  rint x := x.floor
  mono := by intro x y h; grind
  small := by
    intro m h1 h2
    refine if_neg fun h => ?_
    have : (m : Rat) ≤ ((2 ^ 53 : Int) : Rat) := Rat.intCast_le_intCast.2 h2
    have e2 : ((2 ^ 53 : Int) : Rat) = 2 ^ 53 := by decide +kernel
    rw [e2] at this
    grind
  big := by
    intro m h1 h2
    refine if_neg fun h => ?_
    have h3 : ((9007199254740991 : Int) : Rat) < (m : Rat) := by grind
    have h4 : (m : Rat) < ((9007199254740992 : Int) : Rat) := by grind
    rw [Rat.intCast_lt_intCast] at h3 h4
    omega
  two := by decide +kernel
  near := by decide +kernel
  rintMono := fun h => Rat.floor_monotone h
  rintInt := fun m => Rat.floor_intCast m

example : newKey coarse .postgresql 0 = some (-9223372036854775808) ∧ newKey coarse .postgresql 9007199254740991 = some 9223372036854773760 ∧
    newKey coarse .mysql 1 ≠ newKey coarse .mysql 2 := by decide +kernel

end Denorm
