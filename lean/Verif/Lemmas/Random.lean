import Verif.Lemmas.Decode
import Verif.Lemmas.Probability
import Verif.Props.Transcript
import Verif.Props.Grinding
import Verif.Spec.Random

/-!
# Probabilities of drawn digests
-/

namespace Verif.Random
open Spec Finset Proximity
variable {X Y A : Type} [Fintype X] [Fintype Y] [Fintype A]

/-- Either the claim or its negation. -/
theorem probability_not [Nonempty X] (P : X → Prop) : probability X P = 1 - probability X fun x => ¬ P x := by
  classical
  rw [probability_eq, probability_eq, eq_sub_iff_add_eq, ← add_div, ← Nat.cast_add, card_filter_add_card_filter_not,
    card_univ, div_self]
  exact_mod_cast Fintype.card_ne_zero

theorem probability_false {X : Type} [Fintype X] [Nonempty X] : probability X (fun _ => False) = 0 := by
  classical
  simp [probability]

theorem probability_or (P Q : X → Prop) :
    probability X (fun x => P x ∨ Q x) ≤ probability X P + probability X Q := by
  classical
  rw [probability_eq, probability_eq, probability_eq, ← add_div, Finset.filter_or]
  refine div_le_div_of_nonneg_right ?_ (by positivity)
  exact_mod_cast card_union_le _ _

theorem probability_equiv (e : X ≃ Y) (P : Y → Prop) : probability X (fun x => P (e x)) = probability Y P := by
  classical
  rw [probability_eq, probability_eq, Fintype.card_congr e]
  congr 2
  refine card_bij (fun x _ => e x) (fun x hx => by simpa using hx) (fun x _ y _ h => e.injective h) fun y hy =>
    ⟨e.symm y, by simpa using hy, by simp⟩

/-- Only the second of two draws matters. -/
theorem probability_snd [Nonempty X] [Nonempty Y] {P : X × Y → Prop} {δ : ℚ} (hδ : 0 ≤ δ)
    (h : ∀ x, probability Y (fun y => P (x, y)) ≤ δ) : probability (X × Y) P ≤ δ := by
  have := probability_step (X := X) (Y := Y) (A := fun _ => True) (P := P) (ε := 0) (δ := δ)
    (by classical rw [probability_eq]; simp) (fun x _ => h x) hδ
  simpa using this

/-- Only the first of two draws matters. -/
theorem probability_fst [Nonempty X] [Nonempty Y] (P : X → Prop) :
    probability (X × Y) (fun x => P x.1) ≤ probability X P := by
  rw [← probability_equiv (Equiv.prodComm Y X) fun x : X × Y => P x.1]
  exact probability_snd (probability_nonneg _) fun _ => le_rfl

/-- One draw of many, for any values of the others. -/
theorem probability_coordinate [Nonempty A] {k : Nat} (i : Fin k) {P : (Fin k → A) → Prop} {δ : ℚ} (hδ : 0 ≤ δ)
    (h : ∀ l, probability A (fun x => P (Function.update l i x)) ≤ δ) : probability (Fin k → A) P ≤ δ := by
  classical
  have e := (Equiv.funSplitAt i A).trans (Equiv.prodComm _ _)
  have he : ∀ l : Fin k → A, l = ((Equiv.funSplitAt i A).trans (Equiv.prodComm _ _)).symm
      (((Equiv.funSplitAt i A).trans (Equiv.prodComm _ _)) l) := fun l => (Equiv.symm_apply_apply _ l).symm
  have := probability_equiv ((Equiv.funSplitAt i A).trans (Equiv.prodComm _ _))
    fun x => P (((Equiv.funSplitAt i A).trans (Equiv.prodComm _ _)).symm x)
  simp only [← he] at this
  rw [this]
  refine probability_snd hδ fun l => ?_
  obtain ⟨a⟩ := ‹Nonempty A›
  refine le_of_eq_of_le ?_ (h fun j => if hj : j = i then a else l ⟨j, hj⟩)
  congr 1
  ext x
  refine iff_of_eq (congrArg P ?_)
  ext j
  simp only [Equiv.symm_trans_apply, Equiv.prodComm_symm, Equiv.prodComm_apply, Prod.swap_prod_mk,
    Equiv.funSplitAt, Equiv.piSplitAt, Equiv.coe_fn_symm_mk, Function.update_apply]
  by_cases hj : j = i
  · subst hj; simp
  · simp [hj]

/-- All draws satisfy the claim. -/
theorem probability_all (k : Nat) (P : A → Prop) :
    probability (Fin k → A) (fun l => ∀ i, P (l i)) = probability A P ^ k := by
  classical
  rw [probability_eq, probability_eq, Fintype.card_fun, Fintype.card_fin, div_pow]
  congr 1
  · have h1 : ((univ : Finset (Fin k → A)).filter fun l => ∀ i, P (l i))
        = Fintype.piFinset fun _ : Fin k => (univ : Finset A).filter P := by
      ext l
      simp [Fintype.mem_piFinset]
    rw [h1, Fintype.card_piFinset_const]
    push_cast
    rfl
  · push_cast
    rfl

/-- The lists of `k` bytes are the numbers below `256^k`. -/
def bytesEquiv (k : Nat) : { l : Bytes // l.length = k } ≃ Fin (256 ^ k) where
  toFun d := ⟨beNat d.val, by
    have := beNat_lt d.val
    rwa [d.property] at this⟩
  invFun n := ⟨beBytes k n.val, length_beBytes k n.val⟩
  left_inv d := Subtype.ext (by
    have := beBytes_beNat d.val
    rwa [d.property] at this)
  right_inv n := Fin.ext (beNat_beBytes k n.val n.isLt)

theorem probability_bytes {k N : Nat} [Fintype { l : Bytes // l.length = k }] (hN : 256 ^ k = N) (P : Nat → Prop) :
    probability { l : Bytes // l.length = k } (fun d => P (beNat d.val)) = probability (Fin N) fun n => P n.val := by
  subst hN
  exact probability_equiv (bytesEquiv k) fun n => P n.val

instance : Nonempty Commitment := ⟨⟨List.replicate 32 0, List.length_replicate⟩⟩

/-- The probability of a claim on the number that a digest is. -/
theorem probability_digest {N : Nat} (hN : 256 ^ 32 = N) (P : Nat → Prop) :
    probability Commitment (fun d => P (beNat d.val)) = probability (Fin N) fun n => P n.val :=
  probability_bytes hN P

theorem card_residue {N M k : Nat} (hN : N = M * k) (x : Nat) :
    ((univ : Finset (Fin N)).filter fun n => n.val % M = x).card ≤ k := by
  rw [← card_range k]
  refine card_le_card_of_injOn (fun n => n.val / M) (fun n _ => ?_) fun n hn k hk h => ?_
  · rw [coe_range, Set.mem_Iio]
    exact Nat.div_lt_of_lt_mul (n.isLt.trans_eq hN)
  · rw [mem_coe, mem_filter] at hn hk
    have h' : n.val / M = k.val / M := h
    have h1 := Nat.div_add_mod n.val M
    have h2 := Nat.div_add_mod k.val M
    rw [hn.2, h'] at h1
    rw [hk.2] at h2
    exact Fin.ext (h1.symm.trans h2)

theorem probability_residue {N M k : Nat} (hN : N = M * k) (hN0 : 0 < N) (l : List Nat) :
    probability (Fin N) (fun n => n.val % M ∈ l) ≤ l.length / M := by
  classical
  have hM : 0 < M := Nat.pos_of_ne_zero (by rintro rfl; omega)
  have hMq : (0 : ℚ) < M := by exact_mod_cast hM
  have hNq : (0 : ℚ) < N := by exact_mod_cast hN0
  rw [probability_eq, Fintype.card_fin, div_le_div_iff₀ hNq hMq]
  have h3 : ((univ : Finset (Fin N)).filter fun n => n.val % M ∈ l)
      ⊆ l.toFinset.biUnion fun x => univ.filter fun n => n.val % M = x := by
    intro n hn
    rw [mem_biUnion]
    exact ⟨n.val % M, List.mem_toFinset.2 (mem_filter.1 hn).2, mem_filter.2 ⟨mem_univ _, rfl⟩⟩
  have h4 := (card_le_card h3).trans (card_biUnion_le_card_mul _ _ _ fun x _ => card_residue hN x)
  have h6 := h4.trans (Nat.mul_le_mul_right k (List.toFinset_card_le l))
  have h7 := (Nat.cast_le (α := ℚ)).mpr h6
  have hNc : (N : ℚ) = M * k := by exact_mod_cast hN
  rw [hNc]
  push_cast at h7
  calc _ ≤ ((l.length : ℚ) * k) * M := mul_le_mul_of_nonneg_right h7 hMq.le
    _ = _ := by ring

/-- A challenge drawn lies in a list of `n` elements with probability at most `n / 2^251`. -/
theorem probability_challenge {ofDigest : Commitment → FE}
    (hof : ∀ d, randomnessToField 252 d = .ok (ofDigest d)) (l : List FE) :
    probability Commitment (fun d => ofDigest d ∈ l) ≤ l.length / 2 ^ 251 := by
  have h1 : ∀ d, (ofDigest d).val = beNat d.val % 2 ^ 251 := fun d => by
    obtain ⟨x, hx, hv, -⟩ := Props.C50_no_reduction d
    rw [hof d] at hx
    rw [Outcome.ok.inj hx, hv]
  generalize hM : (2 : Nat) ^ 251 = M at h1
  obtain ⟨N, hN⟩ : ∃ N, 256 ^ 32 = N := ⟨_, rfl⟩
  have hNM : N = M * 2 ^ 5 := by rw [← hN, ← hM]; norm_num
  have h2 : probability Commitment (fun d => ofDigest d ∈ l)
      ≤ probability Commitment (fun d => beNat d.val % M ∈ l.map ZMod.val) :=
    probability_mono fun d hd => by
      rw [← h1]
      exact List.mem_map_of_mem hd
  refine h2.trans ?_
  rw [probability_digest hN fun n => n % M ∈ l.map ZMod.val]
  refine (probability_residue hNM (by rw [← hN]; positivity) _).trans (le_of_eq ?_)
  rw [List.length_map, ← hM]
  norm_num

theorem probability_multiple {N A G B : Nat} (hN : N = A * G * B) (hN0 : 0 < N) :
    1 / (G : ℚ) ≤ probability (Fin N) fun n => G ∣ n.val / B := by
  classical
  have hG : 0 < G := Nat.pos_of_ne_zero (by rintro rfl; simp at hN; omega)
  have hB : 0 < B := Nat.pos_of_ne_zero (by rintro rfl; simp at hN; omega)
  have hGq : (0 : ℚ) < G := by exact_mod_cast hG
  have hNq : (0 : ℚ) < N := by exact_mod_cast hN0
  rw [probability_eq, Fintype.card_fin, div_le_div_iff₀ hGq hNq, one_mul]
  have hb : ∀ x ∈ range A ×ˢ range B, x.1 * G * B + x.2 < N := by
    intro x hx
    rw [mem_product, mem_range, mem_range] at hx
    calc x.1 * G * B + x.2 < x.1 * G * B + B := by omega
      _ = (x.1 * G + 1) * B := by ring
      _ ≤ ((x.1 + 1) * G) * B := Nat.mul_le_mul_right _ (by rw [Nat.add_mul]; omega)
      _ ≤ A * G * B := Nat.mul_le_mul_right _ (Nat.mul_le_mul_right _ hx.1)
      _ = N := hN.symm
  have h5 : A * B ≤ ((univ : Finset (Fin N)).filter fun n => G ∣ n.val / B).card := by
    have hc : A * B = (range A ×ˢ range B).card := by rw [card_product, card_range, card_range]
    rw [hc]
    refine card_le_card_of_injOn (fun x => if h : x.1 * G * B + x.2 < N then ⟨x.1 * G * B + x.2, h⟩ else ⟨0, hN0⟩)
      (fun x hx => ?_) fun x hx y hy h => ?_
    · have hlt := hb x hx
      have hx' := mem_product.1 (mem_coe.1 hx)
      rw [mem_range, mem_range] at hx'
      simp only [mem_coe, mem_filter, mem_univ, true_and, dif_pos hlt]
      rw [Nat.mul_comm _ B, Nat.mul_add_div hB, Nat.div_eq_of_lt hx'.2, Nat.add_zero]
      exact Nat.dvd_mul_left _ _
    · have hlx := hb x hx
      have hly := hb y hy
      have hx' := mem_product.1 (mem_coe.1 hx)
      have hy' := mem_product.1 (mem_coe.1 hy)
      rw [mem_range, mem_range] at hx' hy'
      simp only [dif_pos hlx, dif_pos hly, Fin.mk.injEq] at h
      have h8 := congrArg (· % B) h
      simp only [Nat.mul_add_mod_self_right, Nat.mod_eq_of_lt hx'.2, Nat.mod_eq_of_lt hy'.2] at h8
      rw [h8] at h
      exact Prod.ext (Nat.eq_of_mul_eq_mul_right hG (Nat.eq_of_mul_eq_mul_right hB (Nat.add_right_cancel h))) h8
  have h6 := (Nat.cast_le (α := ℚ)).mpr (Nat.mul_le_mul_right G h5)
  have hNc : (N : ℚ) = A * G * B := by exact_mod_cast hN
  rw [hNc]
  push_cast at h6
  linarith

/-- A digest misses a target of `g` zero bits with probability at most `1 - 2^(-g)`. -/
theorem probability_target {g : Nat} (hg : g ≤ 64) :
    probability Commitment (fun d => ¬ 2 ^ g ∣ beNat (d.val.take 8)) ≤ 1 - 1 / 2 ^ g := by
  have h1 : ∀ d : Commitment, beNat (d.val.take 8) = beNat d.val / 256 ^ 24 := fun d => by
    have h := beNat_append (d.val.take 8) (d.val.drop 8)
    have hl : (d.val.drop 8).length = 24 := by rw [List.length_drop, d.property]
    have hlt := beNat_lt (d.val.drop 8)
    rw [List.take_append_drop, hl] at h
    rw [hl] at hlt
    rw [h, Nat.mul_comm, Nat.mul_add_div (by positivity), Nat.div_eq_of_lt hlt, Nat.add_zero]
  simp only [h1]
  generalize hB : (256 : Nat) ^ 24 = B
  obtain ⟨N, hN⟩ : ∃ N, 256 ^ 32 = N := ⟨_, rfl⟩
  have hNA : N = 2 ^ (64 - g) * 2 ^ g * B := by
    rw [← pow_add, Nat.sub_add_cancel hg, ← hN, ← hB]
    norm_num
  have h2 := probability_not fun d : Commitment => 2 ^ g ∣ beNat d.val / B
  have h3 := probability_multiple hNA (by rw [← hN]; positivity)
  rw [← probability_digest hN fun n => 2 ^ g ∣ n / B] at h3
  push_cast at h3
  linarith

end Verif.Random
