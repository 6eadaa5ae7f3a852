import Mathlib.Algebra.Polynomial.Roots
import Mathlib.Algebra.Polynomial.BigOperators
import Mathlib.LinearAlgebra.Lagrange
import Mathlib.Tactic.LinearCombination
import Verif.Model.Field

/-! Equality of multisets from equality of products at enough points. -/

namespace Verif

section
variable {F : Type*} [Field F] [DecidableEq F]
open Polynomial

/-- Two lists of the same length whose products `∏ (z - x)` agree at more points than their length are
permutations of each other. -/
theorem perm_of_products {l₁ l₂ : List F} (hlen : l₁.length = l₂.length) (Z : Finset F)
    (hZ : l₁.length < Z.card)
    (h : ∀ z ∈ Z, (l₁.map fun x => z - x).prod = (l₂.map fun x => z - x).prod) : l₁.Perm l₂ := by
  have hp : ∀ l : List F, ∀ z, (((l : Multiset F).map fun x => X - C x).prod).eval z
      = (l.map fun x => z - x).prod := by
    intro l z
    simp [Multiset.map_coe, Multiset.prod_coe, eval_list_prod, List.map_map, Function.comp_def]
  have hdeg : ∀ l : List F, (((l : Multiset F).map fun x => X - C x).prod).natDegree = l.length := by
    intro l
    rw [natDegree_multiset_prod_X_sub_C_eq_card]; simp
  have heq : ((l₁ : Multiset F).map fun x => X - C x).prod = ((l₂ : Multiset F).map fun x => X - C x).prod := by
    refine eq_of_degree_sub_lt_of_eval_finset_eq Z ?_ ?_
    · refine lt_of_le_of_lt (degree_sub_le _ _) ?_
      have d1 := degree_le_natDegree (p := ((l₁ : Multiset F).map fun x => X - C x).prod)
      have d2 := degree_le_natDegree (p := ((l₂ : Multiset F).map fun x => X - C x).prod)
      rw [hdeg] at d1 d2
      refine lt_of_le_of_lt (max_le d1 (d2.trans (by rw [hlen]))) ?_
      exact_mod_cast hZ
    · intro z hz
      rw [hp, hp]; exact h z hz
  have := congrArg roots heq
  rw [roots_multiset_prod_X_sub_C, roots_multiset_prod_X_sub_C] at this
  exact Multiset.coe_eq_coe.1 this

/-- Two lists of pairs whose images under `(a, v) ↦ a + α v` are permutations of each other for
many `α` are permutations of each other. -/
theorem perm_of_keys {l₁ l₂ : List (F × F)} (A : Finset F)
    (hA : (l₁.length + l₂.length) ^ 2 < A.card)
    (h : ∀ α ∈ A, (l₁.map fun a => a.1 + α * a.2).Perm (l₂.map fun a => a.1 + α * a.2)) :
    l₁.Perm l₂ := by
  classical
  let U : Finset (F × F) := (l₁ ++ l₂).toFinset
  let bad : Finset F := (U ×ˢ U).image fun q => (q.1.1 - q.2.1) / (q.2.2 - q.1.2)
  have hU : U.card ≤ l₁.length + l₂.length := by
    have := List.toFinset_card_le (l₁ ++ l₂)
    rwa [List.length_append] at this
  have hb : bad.card < A.card := by
    refine lt_of_le_of_lt Finset.card_image_le ?_
    rw [Finset.card_product]
    refine lt_of_le_of_lt ?_ hA
    rw [pow_two]
    exact Nat.mul_le_mul hU hU
  obtain ⟨α, hα, hgood⟩ := Finset.exists_mem_notMem_of_card_lt_card hb
  have hinj : ∀ x ∈ l₁ ++ l₂, ∀ y ∈ l₁ ++ l₂, x.1 + α * x.2 = y.1 + α * y.2 → x = y := by
    intro x hx y hy hxy
    by_cases hv : x.2 = y.2
    · refine Prod.ext ?_ hv
      rw [hv] at hxy; exact add_right_cancel hxy
    · exfalso; apply hgood
      refine Finset.mem_image.2 ⟨(x, y), Finset.mem_product.2
        ⟨List.mem_toFinset.2 hx, List.mem_toFinset.2 hy⟩, ?_⟩
      have : y.2 - x.2 ≠ 0 := sub_ne_zero.2 fun e => hv e.symm
      rw [div_eq_iff this]; linear_combination hxy
  rw [List.perm_iff_count]
  intro a
  have hc : ∀ l : List (F × F), (∀ x ∈ l, x ∈ l₁ ++ l₂) → a ∈ l₁ ++ l₂ →
      l.count a = (l.map fun a => a.1 + α * a.2).count (a.1 + α * a.2) := by
    intro l hl ha
    induction l with
    | nil => simp
    | cons b l ih =>
      rw [List.map_cons, List.count_cons, List.count_cons, ih fun x hx => hl x (by simp [hx])]
      congr 1
      by_cases hab : b = a
      · subst hab; simp
      · have : ¬ (b.1 + α * b.2 = a.1 + α * a.2) := fun e => hab (hinj b (hl b (by simp)) a ha e)
        simp [hab, this]
  by_cases ha : a ∈ l₁ ++ l₂
  · rw [hc l₁ (fun x hx => List.mem_append_left _ hx) ha,
      hc l₂ (fun x hx => List.mem_append_right _ hx) ha]
    exact (h α hα).count_eq _
  · rw [List.mem_append, not_or] at ha
    rw [List.count_eq_zero_of_not_mem ha.1, List.count_eq_zero_of_not_mem ha.2]

end

/-- A chain of running-product equations gives the product of the factors. -/
theorem chain_product {F : Type*} [Field F] {num den q : Nat → F} {N : Nat}
    (h0 : num 0 * q 0 = den 0)
    (hstep : ∀ k, k + 1 < N → num (k + 1) * q (k + 1) = den (k + 1) * q k) (k : Nat) (hk : k < N) :
    ((List.range (k + 1)).map num).prod * q k = ((List.range (k + 1)).map den).prod := by
  induction k with
  | zero => simpa using h0
  | succ k ih =>
    rw [List.range_succ, List.map_append, List.prod_append, List.map_append, List.prod_append,
      ← ih (by omega)]
    have := hstep k hk
    simp only [List.map_cons, List.map_nil, List.prod_cons, List.prod_nil, mul_one]
    linear_combination ((List.range (k + 1)).map num).prod * this

end Verif
