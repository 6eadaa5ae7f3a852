import Verif.Lemmas.Draws
import Verif.Spec.Probability
import Mathlib.Tactic.FieldSimp
import Mathlib.Tactic.Linarith
import Mathlib.Tactic.Positivity
import Mathlib.Algebra.Order.BigOperators.Group.Finset
import Mathlib.Algebra.BigOperators.Field

/-!
# Bounds for probabilities
-/

namespace Verif.Proximity
open Spec Finset
variable {X Y F : Type} [Fintype X] [Fintype Y] [Fintype F] [Field F] [DecidableEq F]

theorem probability_eq (P : X → Prop) [DecidablePred P] :
    probability X P = (univ.filter P).card / Fintype.card X := by
  unfold probability
  congr!

theorem probability_nonneg (P : X → Prop) : 0 ≤ probability X P := by
  unfold probability
  positivity

theorem probability_le_one (P : X → Prop) : probability X P ≤ 1 := by
  classical
  rw [probability_eq]
  refine div_le_one_of_le₀ ?_ (by positivity)
  exact_mod_cast Finset.card_le_card (Finset.filter_subset _ _)

theorem probability_mono {P Q : X → Prop} (h : ∀ x, P x → Q x) : probability X P ≤ probability X Q := by
  classical
  rw [probability_eq, probability_eq]
  refine div_le_div_of_nonneg_right ?_ (by positivity)
  exact_mod_cast Finset.card_le_card fun x hx => by
    simp only [Finset.mem_filter, Finset.mem_univ, true_and] at hx ⊢
    exact h x hx

/-- A draw from a product is a draw from the first factor followed by one from the second. -/
theorem probability_prod [Nonempty Y] (P : X × Y → Prop) :
    probability (X × Y) P = (∑ x, probability Y fun y => P (x, y)) / Fintype.card X := by
  classical
  simp only [probability_eq]
  have : ((univ : Finset (X × Y)).filter P).card = ∑ x, ((univ : Finset Y).filter fun y => P (x, y)).card := by
    rw [Finset.card_filter, Fintype.sum_prod_type]
    exact Finset.sum_congr rfl fun x _ => (Finset.card_filter _ _).symm
  have hY : (Fintype.card Y : ℚ) ≠ 0 := by exact_mod_cast Fintype.card_ne_zero
  rw [this, Fintype.card_prod, ← Finset.sum_div]
  push_cast
  by_cases hX : (Fintype.card X : ℚ) = 0
  · simp [hX]
  · field_simp

/-- When `A` fails with probability at most `ε` and, if `A` holds, `P` has probability at most `δ` in the second
draw, then `P` has probability at most `ε + δ`. -/
theorem probability_step [Nonempty X] [Nonempty Y] {A : X → Prop} {P : X × Y → Prop} {ε δ : ℚ}
    (h1 : probability X (fun x => ¬ A x) ≤ ε) (h2 : ∀ x, A x → probability Y (fun y => P (x, y)) ≤ δ) (hδ : 0 ≤ δ) :
    probability (X × Y) P ≤ ε + δ := by
  classical
  have hX : (0 : ℚ) < Fintype.card X := by exact_mod_cast Fintype.card_pos
  have key : ∀ x, probability Y (fun y => P (x, y)) ≤ (if ¬ A x then 1 else 0) + δ := by
    intro x
    by_cases hA : A x
    · rw [if_neg (not_not.mpr hA), zero_add]
      exact h2 x hA
    · rw [if_pos hA]
      linarith [probability_le_one fun y => P (x, y)]
  rw [probability_prod]
  calc _ ≤ (∑ x : X, ((if ¬ A x then (1 : ℚ) else 0) + δ)) / Fintype.card X :=
        div_le_div_of_nonneg_right (Finset.sum_le_sum fun x _ => key x) hX.le
    _ = probability X (fun x => ¬ A x) + δ := by
        rw [Finset.sum_add_distrib, Finset.sum_boole, Finset.sum_const, Finset.card_univ, nsmul_eq_mul, add_div,
          mul_div_cancel_left₀ _ hX.ne', probability_eq]
    _ ≤ _ := by linarith

theorem probability_allBut {n : Nat} {A : F → Prop} (h : AllBut n A) :
    probability F (fun x => ¬ A x) ≤ n / Fintype.card F := by
  classical
  obtain ⟨bad, h1, h2⟩ := h
  rw [probability_eq]
  refine div_le_div_of_nonneg_right ?_ (by positivity)
  refine le_trans ?_ (show ((bad.card : ℕ) : ℚ) ≤ n by exact_mod_cast h1)
  exact_mod_cast Finset.card_le_card fun x hx => by
    by_contra hb
    exact (Finset.mem_filter.mp hx).2 (h2 x hb)

theorem probability_allButDraws {n k : Nat} {A : List F → Prop} (h : AllButDraws n k A) :
    probability (Fin k → F) (fun l => ¬ A (List.ofFn l)) ≤ k * n / Fintype.card F := by
  classical
  have hF : (0 : ℚ) < Fintype.card F := by exact_mod_cast Fintype.card_pos
  have := draws_count n k h
  rw [probability_eq]
  rw [Fintype.card_fun, Fintype.card_fin]
  cases k with
  | zero =>
    simp only [zero_mul, Nat.le_zero, Nat.zero_sub, pow_zero, mul_one] at this
    simp only [Nat.cast_zero, zero_mul, zero_div, pow_zero, Nat.cast_one, div_one]
    exact_mod_cast this.le
  | succ k =>
    rw [div_le_div_iff₀ (by positivity) hF]
    rw [Nat.add_sub_cancel] at this
    have h3 : (((univ.filter fun l : Fin (k + 1) → F => ¬ A (List.ofFn l)).card : ℕ) : ℚ)
        ≤ ((k + 1) * n * Fintype.card F ^ k : ℕ) := by exact_mod_cast this
    calc _ ≤ (((k + 1) * n * Fintype.card F ^ k : ℕ) : ℚ) * Fintype.card F := by
          exact mul_le_mul_of_nonneg_right h3 hF.le
      _ = _ := by push_cast; ring

/-- The probability that `q` draws out of `N` avoid more than `R` values. -/
theorem probability_queries {N R q : Nat} {P : Nat → Prop} {failing : Finset Nat} (hR : R < failing.card)
    (h : ∀ s ∈ failing, s < N ∧ ¬ P s) :
    probability (Fin q → Fin N) (fun ι => ∀ i, P (ι i)) ≤ (1 - (R + 1) / N) ^ q := by
  classical
  have hcard : failing.card ≤ N := by
    have := Finset.card_le_card (s := failing) (t := Finset.range N) fun s hs => Finset.mem_range.mpr (h s hs).1
    rwa [Finset.card_range] at this
  have hN : (0 : ℚ) < N := by exact_mod_cast (by omega : 0 < N)
  have h1 : ((univ : Finset (Fin q → Fin N)).filter fun ι => ∀ i, P (ι i))
      = Fintype.piFinset fun _ : Fin q => (univ : Finset (Fin N)).filter fun s : Fin N => P s := by
    ext ι
    simp [Fintype.mem_piFinset]
  have h3 : ((univ : Finset (Fin N)).filter fun s : Fin N => P s).card + failing.card ≤ N := by
    have e : (((univ : Finset (Fin N)).filter fun s : Fin N => P s).image fun s : Fin N => (s : Nat)).card
        = ((univ : Finset (Fin N)).filter fun s : Fin N => P s).card :=
      Finset.card_image_of_injective _ Fin.val_injective
    rw [← e, ← Finset.card_union_of_disjoint]
    · refine le_of_le_of_eq (Finset.card_le_card (t := Finset.range N) fun s hs => ?_) (Finset.card_range N)
      rcases Finset.mem_union.mp hs with hs | hs
      · obtain ⟨t, -, rfl⟩ := Finset.mem_image.mp hs
        simp
      · exact Finset.mem_range.mpr (h s hs).1
    · rw [Finset.disjoint_left]
      intro s hs hf
      obtain ⟨t, ht, rfl⟩ := Finset.mem_image.mp hs
      exact (h _ hf).2 (Finset.mem_filter.mp ht).2
  rw [probability_eq, h1, Fintype.card_piFinset_const, Fintype.card_fun, Fintype.card_fin, Fintype.card_fin]
  push_cast
  rw [← div_pow]
  refine pow_le_pow_left₀ (by positivity) ?_ q
  rw [div_le_iff₀ hN, sub_mul, div_mul_cancel₀ _ hN.ne', one_mul]
  have : (((univ : Finset (Fin N)).filter fun s : Fin N => P s).card + (R + 1) : ℕ) ≤ N := by omega
  have := (Nat.cast_le (α := ℚ)).mpr this
  push_cast at this
  linarith

end Verif.Proximity
