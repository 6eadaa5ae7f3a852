import Verif.Lemmas.Proximity
import Verif.Lemmas.Draws
import Verif.Spec.Proximity
import Mathlib.RingTheory.RootsOfUnity.PrimitiveRoots
import Mathlib.Data.Set.Finite.Basic

/-!
# Soundness of FRI
-/

namespace Verif.Proximity
open Polynomial Finset Spec
variable {F ι : Type} [Field F] [DecidableEq F]

/-- A set of which all finite subsets are small is a small finite set. -/
theorem finset_of_bounded {α : Type} (B : Set α) (n : Nat) (h : ∀ S : Finset α, (∀ x ∈ S, x ∈ B) → S.card ≤ n) :
    ∃ bad : Finset α, bad.card ≤ n ∧ ∀ x ∈ B, x ∈ bad := by
  have hfin : B.Finite := by
    by_contra hinf
    obtain ⟨t, ht, hc⟩ := Set.Infinite.exists_subset_card_eq hinf (n + 1)
    have := h t fun x hx => ht hx
    omega
  exact ⟨hfin.toFinset, h _ fun x hx => by simpa using hx, fun x hx => by simpa using hx⟩

/-- The polynomial with the even part `P` and the odd part `Q`. -/
theorem interleave_degree {P Q : F[X]} {k : Nat} (hk : 0 < k) (hP : P.degree < k) (hQ : Q.degree < k) :
    (P.comp (X ^ 2) + X * Q.comp (X ^ 2)).degree < ((2 * k : Nat) : WithBot Nat) := by
  have hnd : ∀ p : F[X], p.degree < k → (p.comp (X ^ 2)).natDegree ≤ 2 * (k - 1) := by
    intro p hp
    refine natDegree_comp_le.trans ?_
    rw [natDegree_X_pow, mul_comm]
    refine Nat.mul_le_mul_left _ ?_
    by_cases h0 : p = 0
    · simp [h0]
    · have := (natDegree_lt_iff_degree_lt h0).mpr hp
      omega
  refine lt_of_le_of_lt degree_le_natDegree ?_
  refine Nat.cast_lt.mpr ?_
  refine lt_of_le_of_lt (natDegree_add_le _ _) (max_lt ?_ ?_)
  · have := hnd P hP; omega
  · have := hnd Q hQ
    have := natDegree_mul_le (p := (X : F[X])) (q := Q.comp (X ^ 2))
    rw [natDegree_X] at this
    omega

/-- One round of FRI: if the values `f` at the points `x` are far from polynomials, then except for few challenges
their folds are far from polynomials of half the degree. -/
theorem fold_step (Ω A : Finset ι) (hA : A ⊆ Ω) (f g x : ι → F) (hx : ∀ s ∈ Ω, x s ≠ 0) (h2 : (2 : F) ≠ 0)
    {k cap R m : Nat} (hk : 0 < k) (hcap0 : 0 < cap) (hcap : ∀ z, (Ω.filter fun s => x s ^ 2 = z).card ≤ cap)
    (hR : ProximityGap Ω.card (cap * k) R m)
    (hfar : ∀ p : F[X], p.degree < (2 * k : Nat) → (A.filter fun s => f s = p.eval (x s)).card + R < Ω.card) :
    ∃ bad : Finset F, bad.card ≤ m ∧ ∀ ζ ∉ bad, ∀ c : F[X], c.degree < k →
      (A.filter fun s => foldValue ζ (x s) (f s) (g s) = c.eval (x s ^ 2)).card + R < Ω.card := by
  obtain ⟨bad, h1, h3⟩ := finset_of_bounded
    {ζ : F | ∃ c : F[X], c.degree < k ∧
      Ω.card ≤ (A.filter fun s => foldValue ζ (x s) (f s) (g s) = c.eval (x s ^ 2)).card + R} m (by
    intro S hS
    by_contra hlt
    push Not at hlt
    obtain ⟨P, Q, hP, hQ, hPQ⟩ := line Ω A hA (fun s => (f s + g s) / 2) (fun s => (f s - g s) / (2 * x s))
      (fun s => x s ^ 2) hcap0 hcap hR S hlt (by
        intro ζ hζ
        obtain ⟨c, hc1, hc2⟩ := hS ζ hζ
        exact ⟨c, hc1, hc2⟩)
    have := hfar _ (interleave_degree hk hP hQ)
    have hle : (A.filter fun s => (f s + g s) / 2 = P.eval (x s ^ 2) ∧
        (f s - g s) / (2 * x s) = Q.eval (x s ^ 2)).card
        ≤ (A.filter fun s => f s = (P.comp (X ^ 2) + X * Q.comp (X ^ 2)).eval (x s)).card := by
      refine Finset.card_le_card fun s hs => ?_
      obtain ⟨hsA, e1, e2⟩ := Finset.mem_filter.mp hs
      refine Finset.mem_filter.mpr ⟨hsA, ?_⟩
      have hxs := hx s (hA hsA)
      simp only [eval_add, eval_mul, eval_X, eval_comp, eval_pow]
      rw [← e1, ← e2]
      field_simp
      ring
    omega)
  refine ⟨bad, h1, fun ζ hζ c hc => ?_⟩
  by_contra hle
  exact hζ (h3 ζ ⟨c, hc, by omega⟩)

section Game
variable (S : FriStrategy F) (D : Nat → F) (a b : Nat) (h w : F)

/-- The value of layer `i` at the index `s`; layer `a` is the last value. -/
def layerValue (ζ : List F) (i s : Nat) : F :=
  if i < a then S.layer (ζ.take i) (s % 2 ^ (a + b - i)) else S.last ζ

/-- The check of the query `s` in layer `i`. -/
def Check (ζ : List F) (i s : Nat) : Prop :=
  foldValue (ζ.getD i 0) ((w ^ s * h) ^ 2 ^ i) (S.layer (ζ.take i) (s % 2 ^ (a + b - i)))
      (S.layer (ζ.take i) ((s + 2 ^ (a + b - i) / 2) % 2 ^ (a + b - i)))
    = layerValue S a b (ζ.take (i + 1)) (i + 1) s

instance (ζ : List F) (i s : Nat) : Decidable (Check S a b h w ζ i s) := by unfold Check; infer_instance

/-- The queries whose first value is that of `D` and that pass the checks in the layers before `i`. -/
def passing (ζ : List F) (i : Nat) : Finset Nat :=
  (Finset.range (2 ^ (a + b))).filter fun s => S.layer [] s = D s ∧ ∀ j < i, Check S a b h w ζ j s

omit [DecidableEq F] in
theorem check_take {ζ : List F} {i j : Nat} (hj : j < i) (s : Nat) :
    Check S a b h w (ζ.take i) j s ↔ Check S a b h w ζ j s := by
  unfold Check
  rw [List.take_take, List.take_take, min_eq_left (by omega), min_eq_left (by omega)]
  rw [List.getD_eq_getElem?_getD, List.getElem?_take, if_pos hj, ← List.getD_eq_getElem?_getD]

theorem passing_take (ζ : List F) (i : Nat) : passing S D a b h w (ζ.take i) i = passing S D a b h w ζ i := by
  unfold passing
  refine Finset.filter_congr fun s _ => ?_
  exact and_congr_right fun _ => forall₂_congr fun j hj => check_take S a b h w hj s

/-- The values of the layer that follows the challenges `pre`, at the queries that have passed so far, are far from
polynomials. -/
def Far (R : Nat) (pre : List F) : Prop :=
  ∀ p : F[X], p.degree < (2 ^ (a - pre.length) : Nat) →
    ((passing S D a b h w pre pre.length).filter fun s =>
      layerValue S a b pre pre.length s = p.eval ((w ^ s * h) ^ 2 ^ pre.length)).card + R < 2 ^ (a + b)

theorem point_fiber (hw : IsPrimitiveRoot w (2 ^ (a + b))) (hh : h ≠ 0) {m : Nat} (hm : 0 < m) (z : F) :
    ((Finset.range (2 ^ (a + b))).filter fun s => (w ^ s * h) ^ m = z).card ≤ m := by
  have hinj : Set.InjOn (fun s => w ^ s * h)
      ((Finset.range (2 ^ (a + b))).filter fun s => (w ^ s * h) ^ m = z : Finset Nat) := by
    intro s hs t ht hst
    have hs := Finset.mem_range.mp (Finset.mem_filter.mp hs).1
    have ht := Finset.mem_range.mp (Finset.mem_filter.mp ht).1
    exact hw.pow_inj hs ht (mul_right_cancel₀ hh hst)
  rw [← Finset.card_image_of_injOn hinj]
  refine (Finset.card_le_card (t := (nthRoots m z).toFinset) ?_).trans
    ((Multiset.toFinset_card_le _).trans (card_nthRoots m z))
  intro x hx
  obtain ⟨s, hs, rfl⟩ := Finset.mem_image.mp hx
  rw [Multiset.mem_toFinset, mem_nthRoots hm]
  exact (Finset.mem_filter.mp hs).2

theorem far_step (hw : IsPrimitiveRoot w (2 ^ (a + b))) (hh : h ≠ 0) (h2 : (2 : F) ≠ 0) {R m : Nat}
    (hR : ProximityGap (2 ^ (a + b)) (2 ^ a) R m) (pre : List F) (hi : pre.length < a) (hfar : Far S D a b h w R pre) :
    ∃ bad : Finset F, bad.card ≤ m ∧ ∀ ζ ∉ bad, Far S D a b h w R (pre ++ [ζ]) := by
  have hw0 : w ≠ 0 := hw.ne_zero (by positivity)
  obtain ⟨i, hlen⟩ : ∃ i, pre.length = i := ⟨_, rfl⟩
  unfold Far at hfar
  rw [hlen] at hfar hi
  have hpow : 2 ^ (a - i) = 2 * 2 ^ (a - (i + 1)) := by
    rw [← pow_succ']; congr 1; omega
  have hpow2 : 2 ^ (i + 1) * 2 ^ (a - (i + 1)) = 2 ^ a := by rw [← pow_add]; congr 1; omega
  obtain ⟨bad, h1, h3⟩ := fold_step (Finset.range (2 ^ (a + b))) (passing S D a b h w pre i)
    (Finset.filter_subset _ _) (fun s => S.layer pre (s % 2 ^ (a + b - i)))
    (fun s => S.layer pre ((s + 2 ^ (a + b - i) / 2) % 2 ^ (a + b - i)))
    (fun s => (w ^ s * h) ^ 2 ^ i) (fun s _ => pow_ne_zero _ (mul_ne_zero (pow_ne_zero _ hw0) hh)) h2
    (k := 2 ^ (a - (i + 1))) (cap := 2 ^ (i + 1)) (R := R) (by positivity) (by positivity)
    (fun z => by
      have := point_fiber a b h w hw hh (m := 2 ^ (i + 1)) (by positivity) z
      simpa only [pow_succ 2 i, pow_mul] using this)
    (by rw [Finset.card_range, hpow2]; exact hR)
    (by
      intro p hp
      rw [Finset.card_range]
      have := hfar p (by rw [hpow]; exact hp)
      unfold layerValue at this
      simp only [if_pos hi] at this
      rwa [List.take_of_length_le hlen.le] at this)
  rw [Finset.card_range] at h3
  refine ⟨bad, h1, fun ζ hζ => ?_⟩
  unfold Far
  rw [List.length_append, List.length_singleton, hlen]
  intro p hp
  refine lt_of_le_of_lt (Nat.add_le_add_right (Finset.card_le_card fun s hs => ?_) R) (h3 ζ hζ p hp)
  obtain ⟨hs1, hs2⟩ := Finset.mem_filter.mp hs
  obtain ⟨hs0, hs3⟩ := Finset.mem_filter.mp hs1
  obtain ⟨hs4, hs3⟩ := hs3
  refine Finset.mem_filter.mpr ⟨Finset.mem_filter.mpr ⟨hs0, hs4, fun j hj => ?_⟩, ?_⟩
  · have := hs3 j (by omega)
    rw [← check_take S a b h w (i := i) hj, List.take_append_of_le_length (by omega), ← hlen,
      List.take_length] at this
    exact this
  · have := hs3 i (by omega)
    unfold Check at this
    rw [List.take_append_of_le_length (by omega), ← hlen, List.take_length,
      List.take_of_length_le (by simp), List.getD_eq_getElem?_getD,
      List.getElem?_append_right le_rfl, Nat.sub_self] at this
    rw [hlen] at this
    simp only [List.getElem?_cons_zero, Option.getD_some] at this
    rw [this, hs2, ← pow_mul, ← pow_succ]

/-- Soundness of FRI against every strategy. -/
theorem fri_sound (hw : IsPrimitiveRoot w (2 ^ (a + b))) (hh : h ≠ 0) (h2 : (2 : F) ≠ 0) (ha : 1 ≤ a) {R m : Nat}
    (hR : ProximityGap (2 ^ (a + b)) (2 ^ a) R m)
    (hfar : ¬ NearPoly (2 ^ (a + b)) (fun s => w ^ s * h) D (2 ^ a) R) :
    AllButDraws m a fun ζ => (passing S D a b h w ζ a).card + R < 2 ^ (a + b) := by
  have hstart : Far S D a b h w R [] := by
    intro p hp
    by_contra hcon
    apply hfar
    refine ⟨p, by simpa using hp, ?_⟩
    have hsplit := Finset.card_filter_add_card_filter_not (s := Finset.range (2 ^ (a + b)))
      (fun s => D s = p.eval (w ^ s * h))
    rw [Finset.card_range] at hsplit
    have heq : ((passing S D a b h w [] 0).filter fun s =>
        layerValue S a b [] 0 s = p.eval ((w ^ s * h) ^ 2 ^ 0)).card
        ≤ ((Finset.range (2 ^ (a + b))).filter fun s => D s = p.eval (w ^ s * h)).card := by
      refine Finset.card_le_card fun s hs => ?_
      obtain ⟨h1, h3⟩ := Finset.mem_filter.mp hs
      obtain ⟨h4, h5, -⟩ := Finset.mem_filter.mp h1
      refine Finset.mem_filter.mpr ⟨h4, ?_⟩
      unfold layerValue at h3
      rw [if_pos (by omega), pow_zero, pow_one, Nat.sub_zero, Nat.mod_eq_of_lt (Finset.mem_range.mp h4),
        List.take_nil, h5] at h3
      exact h3
    simp only [List.length_nil] at hcon
    simp only [ne_eq]
    omega
  have hend : ∀ ζ : List F, ζ.length = a → Far S D a b h w R ζ →
      (passing S D a b h w ζ a).card + R < 2 ^ (a + b) := by
    intro ζ hlen hfin
    have := hfin (C (S.last ζ)) (by
      rw [hlen, Nat.sub_self, pow_zero]
      exact lt_of_le_of_lt degree_C_le (by norm_num))
    rw [hlen] at this
    refine lt_of_le_of_lt (Nat.add_le_add_right (Finset.card_le_card fun s hs => ?_) R) this
    refine Finset.mem_filter.mpr ⟨hs, ?_⟩
    rw [eval_C]
    unfold layerValue
    rw [if_neg (lt_irrefl a)]
  have key : ∀ (k : Nat) (pre : List F), pre.length + k = a → Far S D a b h w R pre →
      AllButDraws m k fun l => (passing S D a b h w (pre ++ l) a).card + R < 2 ^ (a + b) := by
    intro k
    induction k with
    | zero =>
      intro pre hlen hpre
      show (passing S D a b h w (pre ++ []) a).card + R < 2 ^ (a + b)
      rw [List.append_nil]
      exact hend pre (by omega) hpre
    | succ k ih =>
      intro pre hlen hpre
      obtain ⟨bad, h1, h3⟩ := far_step S D a b h w hw hh h2 hR pre (by omega) hpre
      refine ⟨bad, h1, fun ζ hζ => ?_⟩
      have := ih (pre ++ [ζ]) (by rw [List.length_append, List.length_singleton]; omega) (h3 ζ hζ)
      simpa only [List.append_assoc, List.singleton_append] using this
  exact key a [] (by simp) hstart

theorem mem_passing {ζ : List F} (hlen : ζ.length = a) {s : Nat} (hs : s < 2 ^ (a + b)) :
    s ∈ passing S D a b h w ζ a ↔ S.layer [] s = D s ∧ S.Passes a b h w ζ s := by
  unfold passing FriStrategy.Passes QueryPasses
  rw [Finset.mem_filter, Finset.mem_range, and_iff_right hs]
  refine and_congr_right fun _ => forall₂_congr fun i hi => ?_
  unfold Check layerValue
  rw [List.take_take, min_self]
  by_cases h1 : i + 1 < a
  · rw [if_pos h1, if_pos h1]
  · rw [if_neg h1, if_neg h1, List.take_of_length_le (i := i + 1) (by omega)]

end Game

end Verif.Proximity
