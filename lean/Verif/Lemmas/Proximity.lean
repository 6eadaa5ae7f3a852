import Verif.Spec.Proximity
import Mathlib.Algebra.Polynomial.Roots
import Mathlib.Algebra.Order.BigOperators.Group.Finset
import Mathlib.Algebra.Order.Chebyshev
import Mathlib.Tactic.LinearCombination
import Mathlib.Tactic.FieldSimp

/-!
# Lines of words close to low-degree polynomials

The arguments of Roth and Zémor and, for more errors, of Ben-Sasson, Kopparty and Saraf (three members of the line at a
time), with points that may repeat: `y s` takes every value at most `cap` times.
-/

namespace Verif.Proximity
open Polynomial Finset Spec
variable {F ι : Type} [Field F] [DecidableEq F]

omit [DecidableEq F] in
theorem degree_C_mul_le' (a : F) (p : F[X]) : (C a * p).degree ≤ p.degree := by
  rw [← smul_eq_C_mul]
  exact degree_smul_le a p

/-- A polynomial of degree below `k` that vanishes at many indices is zero. -/
theorem zero_of_agree {k cap : Nat} (G : Finset ι) (y : ι → F)
    (hcap : ∀ z, (G.filter fun s => y s = z).card ≤ cap) (hk : cap * k ≤ G.card) (hcap0 : 0 < cap) {p : F[X]}
    (hp : p.degree < k) (h : ∀ s ∈ G, p.eval (y s) = 0) : p = 0 := by
  by_contra hne
  have h1 : (G.image y) ⊆ p.roots.toFinset := by
    intro z hz
    obtain ⟨s, hs, rfl⟩ := Finset.mem_image.mp hz
    rw [Multiset.mem_toFinset, mem_roots hne]
    exact h s hs
  have h2 : (G.image y).card < k := by
    refine lt_of_le_of_lt (Finset.card_le_card h1) ?_
    refine lt_of_le_of_lt (Multiset.toFinset_card_le _) ?_
    have := card_roots' p
    have hd := (natDegree_lt_iff_degree_lt hne).mpr hp
    omega
  have h3 : G.card ≤ cap * (G.image y).card := by
    refine Finset.card_le_mul_card_image G cap fun z _ => hcap z
  have h4 : cap * (G.image y).card < cap * k := Nat.mul_lt_mul_of_pos_left h2 hcap0
  omega

/-- If `u + ζ v` agrees with `P + ζ Q` at all but `R` of the indices for `R + 2` values of `ζ`, then `u` and `v` agree
with `P` and `Q` together. -/
theorem line_of_collinear (Ω A : Finset ι) (hA : A ⊆ Ω) (u v y : ι → F) {R : Nat} (P Q : F[X]) (S : Finset F)
    (hS : R + 2 ≤ S.card)
    (h : ∀ ζ ∈ S, Ω.card ≤ (A.filter fun s => u s + ζ * v s = (P + C ζ * Q).eval (y s)).card + R) :
    Ω.card ≤ (A.filter fun s => u s = P.eval (y s) ∧ v s = Q.eval (y s)).card + R := by
  classical
  by_contra hlt
  push Not at hlt
  set E := A.filter fun s => u s = P.eval (y s) ∧ v s = Q.eval (y s) with hE
  have hsplit := Finset.card_filter_add_card_filter_not (s := A)
    (fun s => u s = P.eval (y s) ∧ v s = Q.eval (y s))
  rw [← hE] at hsplit
  have hAΩ := Finset.card_le_card hA
  -- double counting of the agreements
  have hsum : ∑ ζ ∈ S, (A.filter fun s => u s + ζ * v s = (P + C ζ * Q).eval (y s)).card
      ≤ S.card * E.card + (Ω.card - E.card) := by
    have hswap : ∑ ζ ∈ S, (A.filter fun s => u s + ζ * v s = (P + C ζ * Q).eval (y s)).card
        = ∑ s ∈ A, (S.filter fun ζ => u s + ζ * v s = (P + C ζ * Q).eval (y s)).card := by
      simp only [Finset.card_filter]
      exact Finset.sum_comm
    rw [hswap, ← Finset.sum_filter_add_sum_filter_not A (fun s => u s = P.eval (y s) ∧ v s = Q.eval (y s))]
    refine add_le_add ?_ ?_
    · rw [mul_comm]
      exact Finset.sum_le_card_nsmul _ _ _ fun s _ => Finset.card_filter_le _ _
    · refine (Finset.sum_le_card_nsmul _ _ 1 fun s hs => ?_).trans ?_
      · obtain ⟨-, hs⟩ := Finset.mem_filter.mp hs
        rw [Finset.card_le_one]
        intro ζ hζ ζ' hζ'
        obtain ⟨m1, e1⟩ := Finset.mem_filter.mp hζ
        obtain ⟨m2, e2⟩ := Finset.mem_filter.mp hζ'
        rw [eval_add, eval_mul, eval_C] at e1 e2
        by_contra hn
        apply hs
        have hv : v s = Q.eval (y s) := by
          have : (ζ - ζ') * (v s - Q.eval (y s)) = 0 := by linear_combination e1 - e2
          rcases mul_eq_zero.mp this with h | h
          · exact absurd (sub_eq_zero.mp h) hn
          · exact sub_eq_zero.mp h
        exact ⟨by rw [hv] at e1; linear_combination e1, hv⟩
      · rw [smul_eq_mul, mul_one]
        omega
  have hlow : S.card * (Ω.card - R) ≤ ∑ ζ ∈ S, (A.filter fun s => u s + ζ * v s = (P + C ζ * Q).eval (y s)).card := by
    rw [← smul_eq_mul]
    refine Finset.card_nsmul_le_sum _ _ _ fun ζ hζ => ?_
    have := h ζ hζ
    omega
  obtain ⟨x, hx⟩ : ∃ x, Ω.card - R = E.card + 1 + x := ⟨Ω.card - R - E.card - 1, by omega⟩
  obtain ⟨M, hM⟩ : ∃ M, S.card = M + R + 2 := ⟨S.card - R - 2, by omega⟩
  have hn : Ω.card - E.card = R + 1 + x := by omega
  rw [hx, hM] at hlow
  rw [hM, hn] at hsum
  nlinarith [Nat.zero_le (M * x), Nat.zero_le (R * x), hlow.trans hsum]

omit [DecidableEq F] in
/-- The line through two of the polynomials. -/
theorem exists_line {k : Nat} {c1 c2 : F[X]} (h1 : c1.degree < k) (h2 : c2.degree < k) {ζ1 ζ2 : F} (hne : ζ1 ≠ ζ2) :
    ∃ P Q : F[X], P.degree < k ∧ Q.degree < k ∧ c1 = P + C ζ1 * Q ∧ c2 = P + C ζ2 * Q := by
  have hsub : ζ1 - ζ2 ≠ 0 := sub_ne_zero.mpr hne
  have hQd : (C (ζ1 - ζ2)⁻¹ * (c1 - c2)).degree < k := by
    refine lt_of_le_of_lt (degree_C_mul_le' _ _) ?_
    exact lt_of_le_of_lt (degree_sub_le _ _) (max_lt h1 h2)
  refine ⟨c1 - C ζ1 * (C (ζ1 - ζ2)⁻¹ * (c1 - c2)), C (ζ1 - ζ2)⁻¹ * (c1 - c2), ?_, hQd, by ring, ?_⟩
  · refine lt_of_le_of_lt (degree_sub_le _ _) (max_lt h1 ?_)
    exact lt_of_le_of_lt (degree_C_mul_le' _ _) hQd
  · have : C (ζ1 - ζ2) * (C (ζ1 - ζ2)⁻¹ * (c1 - c2)) = c1 - c2 := by
      rw [← mul_assoc, ← C_mul, mul_inv_cancel₀ hsub, C_1, one_mul]
    rw [C_sub] at this
    linear_combination this

/-- Three of the polynomials that agree with the words at enough common indices are on a line. -/
theorem collinear_of_three {k cap : Nat} (G : Finset ι) (u v y : ι → F) (hcap0 : 0 < cap)
    (hcap : ∀ z, (G.filter fun s => y s = z).card ≤ cap) (hk : cap * k ≤ G.card) {P Q c : F[X]} {ζ ζ1 ζ2 : F}
    (hne : ζ1 ≠ ζ2) (hP : P.degree < k) (hQ : Q.degree < k) (hc : c.degree < k)
    (h1 : ∀ s ∈ G, u s + ζ1 * v s = (P + C ζ1 * Q).eval (y s))
    (h2 : ∀ s ∈ G, u s + ζ2 * v s = (P + C ζ2 * Q).eval (y s))
    (h : ∀ s ∈ G, u s + ζ * v s = c.eval (y s)) : c = P + C ζ * Q := by
  have hz := zero_of_agree (k := k) (cap := cap) G y hcap hk hcap0 (p := c - (P + C ζ * Q)) (by
      refine lt_of_le_of_lt (degree_sub_le _ _) (max_lt hc ?_)
      refine lt_of_le_of_lt (degree_add_le _ _) (max_lt hP ?_)
      exact lt_of_le_of_lt (degree_C_mul_le' _ _) hQ) (by
      intro s hs
      have a0 := h s hs
      have a1 := h1 s hs
      have a2 := h2 s hs
      simp only [eval_sub, eval_add, eval_mul, eval_C] at a1 a2 ⊢
      have hsub : ζ1 - ζ2 ≠ 0 := sub_ne_zero.mpr hne
      have : v s = Q.eval (y s) := by
        apply mul_left_cancel₀ hsub
        linear_combination a1 - a2
      rw [← a0, this]
      rw [this] at a1
      linear_combination a1)
  exact sub_eq_zero.mp hz

/-- Three at a time: the sum of the sizes of the common parts of all triples of sets. -/
theorem sum_triples {α : Type} (S : Finset α) (A : Finset ι) (G : α → Finset ι) (hG : ∀ ζ, G ζ ⊆ A)
    [DecidableEq ι] :
    (∑ ζ ∈ S, (G ζ).card) ^ 3
      ≤ A.card ^ 2 * ∑ ζ1 ∈ S, ∑ ζ2 ∈ S, ∑ ζ3 ∈ S, (G ζ1 ∩ (G ζ2 ∩ G ζ3)).card := by
  classical
  have hcard : ∀ B ⊆ A, B.card = ∑ s ∈ A, if s ∈ B then 1 else 0 := by
    intro B hB
    rw [Finset.sum_ite_mem, Finset.inter_eq_right.mpr hB, Finset.card_eq_sum_ones]
  have e1 : ∑ ζ ∈ S, (G ζ).card = ∑ s ∈ A, ∑ ζ ∈ S, if s ∈ G ζ then 1 else 0 := by
    rw [Finset.sum_comm]
    exact Finset.sum_congr rfl fun ζ _ => hcard _ (hG ζ)
  have e2 : ∑ ζ1 ∈ S, ∑ ζ2 ∈ S, ∑ ζ3 ∈ S, (G ζ1 ∩ (G ζ2 ∩ G ζ3)).card
      = ∑ s ∈ A, (∑ ζ ∈ S, if s ∈ G ζ then 1 else 0) ^ 3 := by
    have : ∀ s, (∑ ζ ∈ S, if s ∈ G ζ then 1 else 0 : Nat) ^ 3
        = ∑ ζ1 ∈ S, ∑ ζ2 ∈ S, ∑ ζ3 ∈ S, if s ∈ G ζ1 ∩ (G ζ2 ∩ G ζ3) then 1 else 0 := by
      intro s
      rw [pow_succ, pow_two, Finset.sum_mul_sum, Finset.sum_mul]
      refine Finset.sum_congr (M := Nat) rfl fun ζ1 _ => ?_
      rw [Finset.sum_mul]
      refine Finset.sum_congr (M := Nat) rfl fun ζ2 _ => ?_
      rw [Finset.mul_sum]
      refine Finset.sum_congr (M := Nat) rfl fun ζ3 _ => ?_
      by_cases h1 : s ∈ G ζ1 <;> by_cases h2 : s ∈ G ζ2 <;> by_cases h3 : s ∈ G ζ3 <;> simp [h1, h2, h3]
    simp only [this]
    symm
    rw [Finset.sum_comm]
    refine Finset.sum_congr rfl fun ζ1 _ => ?_
    rw [Finset.sum_comm]
    refine Finset.sum_congr rfl fun ζ2 _ => ?_
    rw [Finset.sum_comm]
    refine Finset.sum_congr rfl fun ζ3 _ => ?_
    symm
    exact hcard _ (Finset.inter_subset_left.trans (hG ζ1))
  rw [e1, e2]
  exact pow_sum_le_card_mul_sum_pow (f := fun s => ∑ ζ ∈ S, if s ∈ G ζ then 1 else 0) (fun _ _ => Nat.zero_le _) 2

/-- Many values of `ζ` whose polynomials are on one line, when any three of them agree at enough common indices or
when there are many. -/
theorem exists_collinear (Ω A : Finset ι) (hA : A ⊆ Ω) (u v y : ι → F) {k cap R m : Nat} (hcap0 : 0 < cap)
    (hcap : ∀ z, (Ω.filter fun s => y s = z).card ≤ cap) (hgap : ProximityGap Ω.card (cap * k) R m)
    (S : Finset F) (hS : m < S.card) (c : F → F[X]) (hdeg : ∀ ζ ∈ S, (c ζ).degree < k)
    (hagree : ∀ ζ ∈ S, Ω.card ≤ (A.filter fun s => u s + ζ * v s = (c ζ).eval (y s)).card + R) :
    ∃ P Q : F[X], P.degree < k ∧ Q.degree < k ∧ R + 2 ≤ (S.filter fun ζ => c ζ = P + C ζ * Q).card := by
  classical
  let G (ζ : F) := A.filter fun s => u s + ζ * v s = (c ζ).eval (y s)
  have hGsub : ∀ ζ, G ζ ⊆ Ω := fun ζ => (Finset.filter_subset _ _).trans hA
  have hGmem : ∀ ζ s, s ∈ G ζ → u s + ζ * v s = (c ζ).eval (y s) := fun ζ s hs => (Finset.mem_filter.mp hs).2
  -- three sets with a large common part
  have hthree : ∀ ζ1 ∈ S, ∀ ζ2 ∈ S, ζ1 ≠ ζ2 → ∃ P Q : F[X], P.degree < k ∧ Q.degree < k ∧
      ∀ ζ ∈ S, cap * k ≤ (G ζ1 ∩ (G ζ2 ∩ G ζ)).card → c ζ = P + C ζ * Q := by
    intro ζ1 h1 ζ2 h2 hne
    obtain ⟨P, Q, hP, hQ, e1, e2⟩ := exists_line (hdeg ζ1 h1) (hdeg ζ2 h2) hne
    refine ⟨P, Q, hP, hQ, fun ζ hζ hcard => ?_⟩
    refine collinear_of_three (G ζ1 ∩ (G ζ2 ∩ G ζ)) u v y hcap0 (fun z => (Finset.card_le_card
      (Finset.filter_subset_filter _ (Finset.inter_subset_left.trans (hGsub ζ1)))).trans (hcap z)) hcard hne hP hQ
      (hdeg ζ hζ) (fun s hs => ?_) (fun s hs => ?_) (fun s hs => ?_)
    · rw [← e1]; exact hGmem _ s (Finset.mem_inter.mp hs).1
    · rw [← e2]; exact hGmem _ s (Finset.mem_inter.mp (Finset.mem_inter.mp hs).2).1
    · exact hGmem _ s (Finset.mem_inter.mp (Finset.mem_inter.mp hs).2).2
  rcases hgap with ⟨h3, hm⟩ | hcube
  · obtain ⟨ζ1, h1, ζ2, h2, hne⟩ := Finset.one_lt_card.mp (by omega : 1 < S.card)
    obtain ⟨P, Q, hP, hQ, hl⟩ := hthree ζ1 h1 ζ2 h2 hne
    refine ⟨P, Q, hP, hQ, ?_⟩
    rw [Finset.filter_true_of_mem]
    · omega
    intro ζ hζ
    refine hl ζ hζ ?_
    have hD : ∀ ζ ∈ S, (Ω \ G ζ).card ≤ R := by
      intro ζ hζ
      have := Finset.card_sdiff_add_card_eq_card (hGsub ζ)
      have := hagree ζ hζ
      simp only [G] at *
      omega
    have hBc : Ω \ (G ζ1 ∩ (G ζ2 ∩ G ζ)) = (Ω \ G ζ1) ∪ ((Ω \ G ζ2) ∪ (Ω \ G ζ)) := by
      rw [Finset.sdiff_inter_distrib_right, Finset.sdiff_inter_distrib_right]
    have e0 := Finset.card_sdiff_add_card_eq_card (Finset.inter_subset_left.trans (hGsub ζ1) : G ζ1 ∩ (G ζ2 ∩ G ζ) ⊆ Ω)
    rw [hBc] at e0
    have e1 := Finset.card_union_le (Ω \ G ζ1) ((Ω \ G ζ2) ∪ (Ω \ G ζ))
    have e2 := Finset.card_union_le (Ω \ G ζ2) (Ω \ G ζ)
    have := hD ζ hζ
    have := hD ζ1 h1
    have := hD ζ2 h2
    omega
  · by_contra hnone
    push Not at hnone
    set N := Ω.card with hN
    set d := cap * k with hd
    set M := S.card with hM
    -- few triples have a large common part
    have hpair : ∀ ζ1 ∈ S, ∀ ζ2 ∈ S, ∑ ζ ∈ S, (G ζ1 ∩ (G ζ2 ∩ G ζ)).card
        ≤ (R + 1 + if ζ1 = ζ2 then M else 0) * N + M * d := by
      intro ζ1 h1 ζ2 h2
      have hbound : ∑ ζ ∈ S, (G ζ1 ∩ (G ζ2 ∩ G ζ)).card
          ≤ (S.filter fun ζ => d ≤ (G ζ1 ∩ (G ζ2 ∩ G ζ)).card).card * N + M * d := by
        rw [← Finset.sum_filter_add_sum_filter_not S (fun ζ => d ≤ (G ζ1 ∩ (G ζ2 ∩ G ζ)).card)]
        refine add_le_add ?_ ?_
        · exact Finset.sum_le_card_nsmul _ _ _ fun ζ _ =>
            Finset.card_le_card (Finset.inter_subset_left.trans (hGsub ζ1))
        · refine (Finset.sum_le_card_nsmul _ _ d fun ζ hζ => ?_).trans ?_
          · exact (not_le.mp (Finset.mem_filter.mp hζ).2).le
          · exact Nat.mul_le_mul_right _ (Finset.card_filter_le _ _)
      refine hbound.trans (Nat.add_le_add_right (Nat.mul_le_mul_right _ ?_) _)
      by_cases he : ζ1 = ζ2
      · rw [if_pos he]
        exact (Finset.card_filter_le _ _).trans (by omega)
      · rw [if_neg he]
        obtain ⟨P, Q, hP, hQ, hl⟩ := hthree ζ1 h1 ζ2 h2 he
        have := hnone P Q hP hQ
        have hsub : (S.filter fun ζ => d ≤ (G ζ1 ∩ (G ζ2 ∩ G ζ)).card) ⊆ S.filter fun ζ => c ζ = P + C ζ * Q := by
          intro ζ hζ
          obtain ⟨m1, m2⟩ := Finset.mem_filter.mp hζ
          exact Finset.mem_filter.mpr ⟨m1, hl ζ m1 m2⟩
        have := Finset.card_le_card hsub
        omega
    have htotal : ∑ ζ1 ∈ S, ∑ ζ2 ∈ S, ∑ ζ ∈ S, (G ζ1 ∩ (G ζ2 ∩ G ζ)).card
        ≤ M ^ 2 * ((R + 2) * N + M * d) := by
      refine (Finset.sum_le_sum fun ζ1 h1 => Finset.sum_le_sum fun ζ2 h2 => hpair ζ1 h1 ζ2 h2).trans (le_of_eq ?_)
      simp only [Finset.sum_add_distrib, add_mul, Finset.sum_const, smul_eq_mul, ← Finset.sum_mul,
        Finset.sum_ite_eq, ← hM]
      rw [Finset.sum_ite_of_true fun _ h => h]
      simp only [Finset.sum_const, smul_eq_mul, ← hM]
      ring
    have hsum := sum_triples S Ω G hGsub
    have hlow : M * (N - R) ≤ ∑ ζ ∈ S, (G ζ).card := by
      rw [hM, ← smul_eq_mul]
      refine Finset.card_nsmul_le_sum _ _ _ fun ζ hζ => ?_
      have := hagree ζ hζ
      show N - R ≤ (A.filter fun s => u s + ζ * v s = (c ζ).eval (y s)).card
      omega
    have hall : (M * (N - R)) ^ 3 ≤ N ^ 2 * (M ^ 2 * ((R + 2) * N + M * d)) :=
      (Nat.pow_le_pow_left hlow 3).trans (hsum.trans (Nat.mul_le_mul_left _ htotal))
    have hMpos : 0 < M ^ 2 := pow_pos (by omega) 2
    have hall' : M * (N - R) ^ 3 ≤ (R + 2) * N ^ 3 + M * d * N ^ 2 := by
      refine le_of_mul_le_mul_left (a := M ^ 2) ?_ hMpos
      calc M ^ 2 * (M * (N - R) ^ 3) = (M * (N - R)) ^ 3 := by ring
        _ ≤ _ := hall
        _ = _ := by ring
    obtain ⟨t, ht⟩ : ∃ t, M = m + 1 + t := ⟨M - (m + 1), by omega⟩
    have hdN : d * N ^ 2 ≤ (N - R) ^ 3 := by
      by_contra hlt
      push Not at hlt
      have := Nat.mul_le_mul_left (m + 1) hlt.le
      nlinarith [Nat.zero_le ((R + 2) * N ^ 3)]
    rw [ht] at hall'
    have := Nat.mul_le_mul_left t hdN
    nlinarith

/-- If for more than `m` values of `ζ` the word `u + ζ v` agrees with a polynomial of degree below `k` at all but
`R` of the indices, then `u` and `v` do so together. -/
theorem line (Ω A : Finset ι) (hA : A ⊆ Ω) (u v y : ι → F) {k cap R m : Nat} (hcap0 : 0 < cap)
    (hcap : ∀ z, (Ω.filter fun s => y s = z).card ≤ cap) (hgap : ProximityGap Ω.card (cap * k) R m)
    (S : Finset F) (hS : m < S.card)
    (h : ∀ ζ ∈ S, ∃ c : F[X], c.degree < k ∧
      Ω.card ≤ (A.filter fun s => u s + ζ * v s = c.eval (y s)).card + R) :
    ∃ P Q : F[X], P.degree < k ∧ Q.degree < k ∧
      Ω.card ≤ (A.filter fun s => u s = P.eval (y s) ∧ v s = Q.eval (y s)).card + R := by
  choose! c hdeg hagree using h
  obtain ⟨P, Q, hP, hQ, hcard⟩ := exists_collinear Ω A hA u v y hcap0 hcap hgap S hS c hdeg hagree
  refine ⟨P, Q, hP, hQ, line_of_collinear Ω A hA u v y P Q _ hcard fun ζ hζ => ?_⟩
  obtain ⟨m1, m2⟩ := Finset.mem_filter.mp hζ
  rw [← m2]
  exact hagree ζ m1

/-- A third of the distance is a radius. -/
theorem radius_third {a b R : Nat} (h : 3 * R + 2 ^ a + 1 ≤ 2 ^ (a + b)) : DecodingRadius a b R (R + 1) :=
  ⟨by omega, Or.inl ⟨by omega, le_rfl⟩⟩

end Verif.Proximity
