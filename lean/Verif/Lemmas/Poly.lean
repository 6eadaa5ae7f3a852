import Verif.Model.Fri
import Verif.Lemmas.Bits
import Verif.Lemmas.CairoImport
import Verif.Lemmas.Trace
import Mathlib.Algebra.Polynomial.Expand
import Mathlib.Tactic.LinearCombination
import Mathlib.Tactic.FieldSimp

/-!
# Lemmas about polynomials, transforms and domains
-/

namespace Verif
open Polynomial
variable {F : Type} [Field F]

/-! ## Coefficient lists -/

theorem polyNew_coeff (l : List F) (i : Nat) : (polyNew l).coeff i = l.getD i 0 := by
  unfold polyNew
  rw [finset_sum_coeff]
  simp only [coeff_monomial]
  by_cases h : i < l.length
  · rw [Finset.sum_eq_single i]
    · simp
    · intro j _ hj; simp [hj]
    · intro hj; simp at hj; omega
  · rw [Finset.sum_eq_zero]
    · simp [List.getD, List.getElem?_eq_none (by omega : l.length ≤ i)]
    · intro j hj
      have : j ≠ i := by rintro rfl; simp at hj; omega
      simp [this]

theorem coefficients_getD [DecidableEq F] (p : F[X]) (i : Nat) : (coefficients p).getD i 0 = p.coeff i := by
  unfold coefficients
  by_cases hp : p = 0
  · simp [hp]
  · simp only [hp, if_false]
    by_cases h : i < p.natDegree + 1
    · simp [List.getD, h]
    · simp only [List.getD, List.getElem?_map]
      rw [List.getElem?_eq_none (by simpa using h)]
      simp [coeff_eq_zero_of_natDegree_lt (by omega : p.natDegree < i)]

theorem coefficients_length_le [DecidableEq F] (p : F[X]) (n : Nat) :
    (coefficients p).length ≤ n ↔ p.degree < n := by
  unfold coefficients
  by_cases hp : p = 0
  · simp [hp, WithBot.bot_lt_coe]
  · simp only [hp, if_false, List.length_map, List.length_range]
    rw [degree_eq_natDegree hp, Nat.cast_lt]
    omega

theorem everySecond_getD (l : List F) (i : Nat) : (everySecond l).getD i 0 = l.getD (2 * i) 0 := by
  induction l using everySecond.induct generalizing i with
  | case1 a b rest ih =>
    unfold everySecond
    cases i with
    | zero => simp
    | succ i =>
      have := ih i
      rw [show 2 * (i + 1) = 2 * i + 1 + 1 by ring]
      simpa using this
  | case2 l h =>
    match l, h with
    | [], _ => simp [everySecond]
    | [a], _ =>
      cases i with
      | zero => simp [everySecond]
      | succ i => simp [everySecond, List.getD]
    | a :: b :: r, h => exact absurd rfl (h a b r)

theorem drop_one_getD (l : List F) (i : Nat) : (l.drop 1).getD i 0 = l.getD (i + 1) 0 := by
  simp [List.getD, Nat.add_comm]

/-! ## Even and odd parts -/

section
variable [DecidableEq F]

theorem even_coeff (p : F[X]) (i : Nat) : (evenOdd p).1.coeff i = p.coeff (2 * i) := by
  simp only [evenOdd, polyNew_coeff, everySecond_getD, coefficients_getD]

theorem odd_coeff (p : F[X]) (i : Nat) : (evenOdd p).2.coeff i = p.coeff (2 * i + 1) := by
  simp only [evenOdd, polyNew_coeff, everySecond_getD, drop_one_getD, coefficients_getD]

theorem evenOdd_expand (p : F[X]) :
    p = expand F 2 (evenOdd p).1 + X * expand F 2 (evenOdd p).2 := by
  ext i
  rw [coeff_add]
  rcases Nat.even_or_odd' i with ⟨j, rfl | rfl⟩
  · rw [mul_comm 2 j, coeff_expand_mul (by norm_num : 0 < 2), even_coeff]
    cases j with
    | zero => simp
    | succ j =>
      rw [show (j + 1) * 2 = (2 * j + 1) + 1 by ring, coeff_X_mul, coeff_expand (by norm_num)]
      rw [if_neg (by omega), add_zero]
      congr 1
  · rw [coeff_X_mul, mul_comm 2 j, coeff_expand_mul (by norm_num : 0 < 2), odd_coeff,
      coeff_expand (by norm_num), if_neg (by omega), zero_add, mul_comm 2 j]

theorem evenOdd_eval (p : F[X]) (x : F) :
    p.eval x = (evenOdd p).1.eval (x ^ 2) + x * (evenOdd p).2.eval (x ^ 2) := by
  conv_lhs => rw [evenOdd_expand p]
  simp [expand_eval]

theorem even_degree (p : F[X]) (n : Nat) (h : p.degree < (2 * n : Nat)) :
    (evenOdd p).1.degree < n := by
  rw [degree_lt_iff_coeff_zero] at h ⊢
  intro i hi
  rw [even_coeff]
  exact h _ (by omega)

theorem odd_degree (p : F[X]) (n : Nat) (h : p.degree < (2 * n : Nat)) :
    (evenOdd p).2.degree < n := by
  rw [degree_lt_iff_coeff_zero] at h ⊢
  intro i hi
  rw [odd_coeff]
  exact h _ (by omega)

/-! ## Folding -/

theorem fold_eq (p : F[X]) (beta : F) :
    Fri.foldPolynomial p beta = (evenOdd p).1 + C beta * (evenOdd p).2 := by
  ext i
  rw [coeff_add, coeff_C_mul, odd_coeff, even_coeff]
  unfold Fri.foldPolynomial
  rw [coeff_add, polyNew_coeff, polyNew_coeff, everySecond_getD, coefficients_getD]
  congr 1
  have : ∀ l : List F, (l.map (· * beta)).getD i 0 = beta * l.getD i 0 := by
    intro l
    simp only [List.getD, List.getElem?_map]
    cases l[i]? <;> simp [mul_comm]
  rw [this, everySecond_getD, drop_one_getD, coefficients_getD]

theorem fold_degree (p : F[X]) (beta : F) (n : Nat) (h : p.degree < (2 * n : Nat)) :
    (Fri.foldPolynomial p beta).degree < n := by
  rw [fold_eq]
  refine lt_of_le_of_lt (degree_add_le _ _) (max_lt (even_degree p n h) ?_)
  rw [degree_lt_iff_coeff_zero]
  intro i hi
  rw [coeff_C_mul, coeff_eq_zero_of_degree_lt (lt_of_lt_of_le (odd_degree p n h) (by exact_mod_cast hi)),
    mul_zero]

theorem fold_eval (p : F[X]) (beta x : F) (hx : x ≠ 0) (h2 : (2 : F) ≠ 0) :
    (Fri.foldPolynomial p beta).eval (x ^ 2) =
      (p.eval x + p.eval (-x)) * (2 : F)⁻¹ + beta * (p.eval x - p.eval (-x)) * (2 : F)⁻¹ * x⁻¹ := by
  rw [fold_eq, evenOdd_eval p x, evenOdd_eval p (-x)]
  simp only [eval_add, eval_mul, eval_C, neg_sq]
  field_simp
  ring

end

/-! ## Roots of unity -/

theorem trailingZeros_pow {k : Nat} (hk : k < 64) : trailingZeros 64 (2 ^ k) = k :=
  trailingZeros_two_pow 64 k hk

theorem getRoot_ok {ta : TwoAdic F} {k : Nat} {w : F} : ta.getRoot k = .ok w ↔ ta.root k = some w := by
  unfold TwoAdic.getRoot Outcome.ofOptionUnwrap
  cases ta.root k <;> simp

theorem root_le_adicity {ta : TwoAdic F} {k : Nat} {w : F} (h : ta.root k = some w) : k ≤ ta.adicity := by
  by_contra hk
  rw [ta.undefined k (by omega)] at h
  cases h

/-- The root of a lower order is a power of the root of a higher order. -/
theorem root_pow {ta : TwoAdic F} {k j : Nat} {w w' : F} (hk : 1 ≤ k) (h : ta.root k = some w)
    (h' : ta.root (k + j) = some w') : w' ^ (2 ^ j) = w := by
  induction j generalizing w' with
  | zero =>
    rw [Nat.add_zero, h] at h'
    simp [Option.some.inj h']
  | succ j ih =>
    obtain ⟨v, hv⟩ := Option.isSome_iff_exists.mp (ta.defined (k + j) (by omega)
      (by have := root_le_adicity h'; omega))
    rw [pow_succ' 2 j, pow_mul, ta.square (k + j) v w' (by omega) hv h', ih hv]

theorem two_ne_zero_of_root {ta : TwoAdic F} {k : Nat} {w : F} (hk : 1 ≤ k) (h : ta.root k = some w) :
    (2 : F) ≠ 0 := by
  intro h2
  obtain ⟨v, hv⟩ := Option.isSome_iff_exists.mp (ta.defined 1 le_rfl (by have := root_le_adicity h; omega))
  have hp := ta.primitive 1 v le_rfl hv
  rw [pow_one] at hp
  have : v = -1 := hp.eq_neg_one_of_two_right
  have h1 : v = 1 := by
    rw [this]
    linear_combination -h2
  rw [h1] at hp
  exact absurd (hp.dvd_of_pow_eq_one 1 (by simp)) (by norm_num)

theorem root_ne_zero {ta : TwoAdic F} {k : Nat} {w : F} (hk : 1 ≤ k) (h : ta.root k = some w) : w ≠ 0 :=
  (ta.primitive k w hk h).ne_zero (by positivity)

/-- The powers of a root, shifted, are different points. -/
theorem coset_injOn {ta : TwoAdic F} {k : Nat} {w h : F} (hk : 1 ≤ k) (hw : ta.root k = some w)
    (hh : h ≠ 0) : Set.InjOn (fun i => w ^ i * h) (Finset.range (2 ^ k)) := by
  intro i hi j hj hij
  simp only [Finset.coe_range, Set.mem_Iio] at hi hj
  exact (ta.primitive k w hk hw).pow_inj hi hj (mul_right_cancel₀ hh hij)

/-! ## Transforms -/

section
variable [DecidableEq F]

theorem nextPowerOfTwo_pow (k : Nat) : nextPowerOfTwo (2 ^ k) = 2 ^ k := by
  unfold nextPowerOfTwo
  rw [Nat.clog_pow 2 k (by norm_num)]

/-- Evaluation on a coset of `2^(a+b)` points of a polynomial with at most `2^a` coefficients. -/
theorem evaluateOffsetFft_ok {ta : TwoAdic F} {p : F[X]} {a b : Nat} {h w : F}
    (hp : p.degree < (2 ^ a : Nat)) (hab : a + b < 64) (hw : ta.root (a + b) = some w) :
    evaluateOffsetFft ta p (2 ^ b) (2 ^ a) h
      = .ok ((List.range (2 ^ (a + b))).map fun i => p.eval (w ^ i * h)) := by
  unfold evaluateOffsetFft
  have h1 : max (coefficients p).length (2 ^ a) = 2 ^ a :=
    max_eq_right ((coefficients_length_le p _).mpr hp)
  have hlen : nextPowerOfTwo (max (coefficients p).length (2 ^ a)) * 2 ^ b = 2 ^ (a + b) := by
    rw [h1, nextPowerOfTwo_pow, pow_add]
  simp only [hlen]
  rw [Nat.log_pow (by norm_num : 1 < 2)]
  simp only [ne_eq, not_true_eq_false, if_false]
  rw [trailingZeros_pow hab, getRoot_ok.mpr hw]
  rfl

theorem evaluateOnLde_ok {ta : TwoAdic F} {p : F[X]} {a b : Nat} {h w : F}
    (hp : p.degree < (2 ^ a : Nat)) (hab : a + b < 64) (hw : ta.root (a + b) = some w) :
    evaluateOnLde ta p (2 ^ b) (2 ^ a) h
      = .ok ((List.range (2 ^ (a + b))).map fun i => p.eval (w ^ i * h)) := by
  unfold evaluateOnLde
  rw [evaluateOffsetFft_ok hp hab hw]
  have hpos : 2 ^ a * 2 ^ b ≠ 0 := by positivity
  simp only [Outcome.bind_ok, List.length_map, List.length_range]
  simp only [hpos, if_false]
  rw [← pow_add, Nat.div_self (by positivity)]
  rfl

/-- A polynomial with more coefficients is evaluated on a larger coset, and the values on the coset of `2^(a+b)`
points are picked out. -/
theorem evaluateOnLde_large {ta : TwoAdic F} {p : F[X]} {a b m : Nat} {h w : F} (hpos : 1 ≤ a + b) (ham : a ≤ m)
    (hp : p.degree < (2 ^ m : Nat)) (hmb : m + b < 64) (had : m + b ≤ ta.adicity)
    (hw : ta.root (a + b) = some w) :
    evaluateOnLde ta p (2 ^ b) (2 ^ a) h
      = .ok ((List.range (2 ^ (a + b))).map fun i => p.eval (w ^ i * h)) := by
  obtain ⟨k, hk⟩ : ∃ k, k = Nat.clog 2 (max (coefficients p).length (2 ^ a)) := ⟨_, rfl⟩
  have hak : a ≤ k := by
    rw [hk]
    calc a = Nat.clog 2 (2 ^ a) := (Nat.clog_pow 2 a (by norm_num)).symm
      _ ≤ _ := Nat.clog_mono_right 2 (le_max_right _ _)
  have hkm : k ≤ m := by
    rw [hk]
    refine Nat.clog_le_of_le_pow (max_le ((coefficients_length_le p _).mpr hp) ?_)
    exact Nat.pow_le_pow_right (by norm_num) ham
  obtain ⟨v, hv⟩ := Option.isSome_iff_exists.mp (ta.defined (k + b) (by omega) (by omega))
  obtain ⟨j, rfl⟩ : ∃ j, k = a + j := ⟨k - a, by omega⟩
  have hvw : v ^ 2 ^ j = w := root_pow hpos hw (by rwa [show a + b + j = a + j + b by omega])
  have hev : evaluateOffsetFft ta p (2 ^ b) (2 ^ a) h
      = .ok ((List.range (2 ^ (a + j + b))).map fun i => p.eval (v ^ i * h)) := by
    unfold evaluateOffsetFft
    have hlen : nextPowerOfTwo (max (coefficients p).length (2 ^ a)) * 2 ^ b = 2 ^ (a + j + b) := by
      unfold nextPowerOfTwo
      rw [← hk, ← pow_add]
    simp only [hlen]
    rw [Nat.log_pow (by norm_num : 1 < 2)]
    simp only [ne_eq, not_true_eq_false, if_false]
    rw [trailingZeros_pow (by omega), getRoot_ok.mpr hv]
    rfl
  unfold evaluateOnLde
  rw [hev]
  have hne : 2 ^ a * 2 ^ b ≠ 0 := by positivity
  have hstep : 2 ^ (a + j + b) / (2 ^ a * 2 ^ b) = 2 ^ j := by
    rw [← pow_add, show a + j + b = j + (a + b) by omega, pow_add 2 j, Nat.mul_div_cancel _ (by positivity)]
  simp only [Outcome.bind_ok, List.length_map, List.length_range, hne, if_false, hstep]
  by_cases hj : j = 0
  · subst hj
    rw [pow_zero, pow_one] at hvw
    rw [pow_zero, if_pos rfl, hvw]
    rfl
  · have h1 : 2 ^ j ≠ 1 := by
      intro h1
      exact hj (Nat.pow_right_injective (le_refl 2) (by simpa using h1))
    have h2 : 2 ^ j ≠ 0 := by positivity
    rw [if_neg h1, if_neg h2, show a + j + b = (a + b) + j by omega, pow_add 2 (a + b) j,
      TraceTable.stepBy_mul _ _ (by positivity)]
    simp only [Outcome.pure_eq, List.map_map]
    refine congrArg Outcome.ok (List.map_congr_left fun i hi => ?_)
    have hi := List.mem_range.mp hi
    have hlt : i * 2 ^ j < 2 ^ (a + b) * 2 ^ j := Nat.mul_lt_mul_of_pos_right hi (by positivity)
    simp only [Function.comp_apply]
    rw [List.getD, List.getElem?_map, List.getElem?_range hlt]
    simp only [Option.map_some, Option.getD_some]
    rw [← hvw, ← pow_mul, mul_comm (2 ^ j)]

/-- Interpolation recovers a polynomial of small degree from its values on the coset. -/
theorem interpolateOffsetFft_eval {ta : TwoAdic F} {a : Nat} {h w : F} (ha : 1 ≤ a) (ha64 : a < 64)
    (hw : ta.root a = some w) (hh : h ≠ 0) (q : F[X]) (hq : q.degree < (2 ^ a : Nat)) :
    interpolateOffsetFft ta ((List.range (2 ^ a)).map fun i => q.eval (w ^ i * h)) h = .ok q := by
  unfold interpolateOffsetFft
  simp only [List.length_map, List.length_range]
  rw [Nat.log_pow (by norm_num : 1 < 2)]
  simp only [ne_eq, not_true_eq_false, if_false]
  rw [trailingZeros_pow ha64, getRoot_ok.mpr hw]
  simp only [Outcome.bind_ok, if_neg hh]
  refine congrArg Outcome.ok ?_
  symm
  refine Lagrange.eq_interpolate_of_eval_eq _ (coset_injOn ha hw hh) ?_ ?_
  · rw [Finset.card_range]; exact hq
  · intro i hi
    have : i < 2 ^ a := by simpa using hi
    simp [List.getD, this]

theorem interpolateOffsetFft_ok {ta : TwoAdic F} {a : Nat} {h w : F} (ha : 1 ≤ a) (ha64 : a < 64)
    (hw : ta.root a = some w) (hh : h ≠ 0) (values : List F) (hl : values.length = 2 ^ a) :
    ∃ q : F[X], interpolateOffsetFft ta values h = .ok q ∧ q.degree < (2 ^ a : Nat) ∧
      ∀ i < 2 ^ a, q.eval (w ^ i * h) = values.getD i 0 := by
  unfold interpolateOffsetFft
  rw [hl, Nat.log_pow (by norm_num : 1 < 2)]
  simp only [ne_eq, not_true_eq_false, if_false]
  rw [trailingZeros_pow ha64, getRoot_ok.mpr hw]
  simp only [Outcome.bind_ok, if_neg hh]
  refine ⟨_, rfl, ?_, ?_⟩
  · have := Lagrange.degree_interpolate_lt (s := Finset.range (2 ^ a)) (fun i => values.getD i 0)
      (coset_injOn ha hw hh)
    rwa [Finset.card_range] at this
  · intro i hi
    exact Lagrange.eval_interpolate_at_node (fun i => values.getD i 0) (coset_injOn ha hw hh)
      (Finset.mem_range.mpr hi)

end
end Verif
