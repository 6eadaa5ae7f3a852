import Verif.Model.Options
import Mathlib.Data.Nat.Bitwise
import Mathlib.Data.Nat.Size

/-!
# Trailing zeros
-/

namespace Verif

theorem trailingZeros_spec (bits n : Nat) :
    (∀ i < trailingZeros bits n, n.testBit i = false) ∧
    (trailingZeros bits n < bits → n.testBit (trailingZeros bits n) = true) ∧
    trailingZeros bits n ≤ bits := by
  unfold trailingZeros
  rcases h : (List.range bits).find? (fun i => n.testBit i) with _ | k
  · rw [List.find?_eq_none] at h
    refine ⟨fun i hi => ?_, fun hlt => absurd hlt (lt_irrefl _), le_refl _⟩
    have := h i (List.mem_range.2 hi)
    simpa using this
  · have hk := List.find?_some h
    have hmem := List.mem_of_find?_eq_some h
    rw [List.mem_range] at hmem
    refine ⟨fun i hi => ?_, fun _ => by simpa using hk, by simpa using hmem.le⟩
    simp only [Option.getD_some] at hi
    rw [List.find?_range_eq_some] at h
    simpa using h.2.2 i hi

theorem testBit_false_iff_dvd (n f : Nat) : (∀ i < f, n.testBit i = false) ↔ 2 ^ f ∣ n := by
  constructor
  · intro h
    have : n % 2 ^ f = 0 := by
      apply Nat.eq_of_testBit_eq
      intro i
      rw [Nat.testBit_mod_two_pow]
      by_cases hi : i < f
      · simp [h i hi]
      · simp [hi]
    exact Nat.dvd_of_mod_eq_zero this
  · rintro ⟨m, rfl⟩ i hi
    simp [Nat.testBit_two_pow_mul, hi]

/-- A number has at least `f` trailing zeros exactly when it is a multiple of `2 ^ f`. -/
theorem le_trailingZeros (bits n f : Nat) (hn : n < 2 ^ bits) :
    f ≤ trailingZeros bits n ↔ f ≤ bits ∧ 2 ^ f ∣ n := by
  obtain ⟨h1, h2, h3⟩ := trailingZeros_spec bits n
  rw [← testBit_false_iff_dvd]
  constructor
  · exact fun h => ⟨h.trans h3, fun i hi => h1 i (hi.trans_le h)⟩
  · rintro ⟨hb, h⟩
    by_contra hlt
    push Not at hlt
    have := h _ hlt
    rw [h2 (hlt.trans_le hb)] at this
    exact absurd this (by decide)

theorem trailingZeros_two_pow (bits k : Nat) (hk : k < bits) : trailingZeros bits (2 ^ k) = k := by
  have hn : 2 ^ k < 2 ^ bits := Nat.pow_lt_pow_right (by norm_num) hk
  apply le_antisymm
  · have := (le_trailingZeros bits (2 ^ k) (trailingZeros bits (2 ^ k)) hn).1 (le_refl _)
    exact (Nat.pow_dvd_pow_iff_le_right (by norm_num)).1 this.2
  · exact (le_trailingZeros bits (2 ^ k) k hn).2 ⟨hk.le, dvd_refl _⟩

end Verif
