import Verif.Lemmas.Random
import Verif.Spec.Derivation

/-!
# Probabilities of derived draws
-/

namespace Verif.Random
open Spec Finset Proximity
variable {X Y A : Type} [Fintype X] [Fintype Y] [Fintype A]

theorem probability_and_le [Nonempty X] [Nonempty Y] {P : X → Prop} {Q : Y → Prop} {δ ε : ℚ} (hε : 0 ≤ ε)
    (h1 : probability X P ≤ δ) (h2 : probability Y Q ≤ ε) :
    probability (X × Y) (fun x => P x.1 ∧ Q x.2) ≤ δ * ε := by
  classical
  have hX : (0 : ℚ) < Fintype.card X := by exact_mod_cast Fintype.card_pos
  have key : ∀ x, probability Y (fun y => P x ∧ Q y) ≤ if P x then ε else 0 := by
    intro x
    by_cases hP : P x
    · simpa [hP] using h2
    · simp [hP, probability_false]
  rw [probability_prod]
  calc _ ≤ (∑ x : X, if P x then ε else 0) / Fintype.card X :=
        div_le_div_of_nonneg_right (Finset.sum_le_sum fun x _ => key x) hX.le
    _ = probability X P * ε := by
        rw [← Finset.sum_filter, Finset.sum_const, nsmul_eq_mul, probability_eq, div_mul_eq_mul_div]
    _ ≤ _ := mul_le_mul_of_nonneg_right h1 hε

theorem probability_pi_le {k : Nat} {P : Fin k → A → Prop} {δ : ℚ} (hδ : 0 ≤ δ)
    (h : ∀ i, probability A (P i) ≤ δ) : probability (Fin k → A) (fun l => ∀ i, P i (l i)) ≤ δ ^ k := by
  classical
  have e : probability (Fin k → A) (fun l => ∀ i, P i (l i)) = ∏ i, probability A (P i) := by
    simp only [probability_eq]
    rw [Fintype.card_fun, Fintype.card_fin, Finset.prod_div_distrib, Finset.prod_const, Finset.card_univ,
      Fintype.card_fin]
    congr 1
    · have h1 : ((univ : Finset (Fin k → A)).filter fun l => ∀ i, P i (l i))
          = Fintype.piFinset fun i : Fin k => (univ : Finset A).filter (P i) := by
        ext l
        simp [Fintype.mem_piFinset]
      rw [h1, Fintype.card_piFinset]
      push_cast
      rfl
    · push_cast
      rfl
  rw [e]
  calc _ ≤ ∏ _i : Fin k, δ := Finset.prod_le_prod (fun i _ => probability_nonneg _) fun i _ => h i
    _ = δ ^ k := by simp

/-- When each value is derived with a probability that is at most `κ` times its probability in a uniform draw, then so
is every event. -/
theorem probability_transfer (g : X → Option Y) {κ : ℚ} (hκ : 0 ≤ κ)
    (h : ∀ y, probability X (fun x => g x = some y) ≤ κ / Fintype.card Y) (E : Y → Prop) :
    probability X (fun x => ∃ y, g x = some y ∧ E y) ≤ κ * probability Y E := by
  classical
  by_cases hX : (Fintype.card X : ℚ) = 0
  · rw [probability_eq, hX, div_zero]
    exact mul_nonneg hκ (probability_nonneg _)
  have hX : (0 : ℚ) < Fintype.card X := lt_of_le_of_ne (by positivity) (Ne.symm hX)
  have h1 : ((univ : Finset X).filter fun x => ∃ y, g x = some y ∧ E y)
      ⊆ (univ.filter E).biUnion fun y => univ.filter fun x => g x = some y := by
    intro x hx
    obtain ⟨y, hy, hE⟩ := (mem_filter.1 hx).2
    exact mem_biUnion.2 ⟨y, mem_filter.2 ⟨mem_univ _, hE⟩, mem_filter.2 ⟨mem_univ _, hy⟩⟩
  have h2 := (card_le_card h1).trans card_biUnion_le
  have h3 := (Nat.cast_le (α := ℚ)).mpr h2
  push_cast at h3
  rw [probability_eq, div_le_iff₀ hX]
  refine h3.trans ?_
  calc _ ≤ ∑ _y ∈ univ.filter E, κ / Fintype.card Y * Fintype.card X := by
        refine Finset.sum_le_sum fun y _ => ?_
        have := h y
        rwa [probability_eq, div_le_iff₀ hX] at this
    _ = _ := by
        rw [Finset.sum_const, nsmul_eq_mul, probability_eq]
        ring

theorem challengeOf_spec (d : Commitment) : randomnessToField 252 d = .ok (challengeOf d) :=
  Props.C50_randomness_masked 252 (by norm_num) (by norm_num) d

theorem probability_challengeOf (l : List FE) :
    probability Commitment (fun d => challengeOf d ∈ l) ≤ l.length / 2 ^ 251 :=
  probability_challenge challengeOf_spec l

theorem probability_challengeOf_eq (x : FE) :
    probability Commitment (fun d => challengeOf d = x) ≤ 1 / 2 ^ 251 := by
  have := probability_challengeOf [x]
  simpa using this

theorem probability_challenges {k : Nat} (l : Fin k → FE) :
    probability (Fin k → Commitment) (fun d => challengeOf ∘ d = l) ≤ (1 / 2 ^ 251) ^ k := by
  have := probability_pi_le (A := Commitment) (P := fun i d => challengeOf d = l i) (by positivity)
    fun i => probability_challengeOf_eq (l i)
  simpa only [funext_iff, Function.comp_apply] using this

theorem probability_fst_eq [Nonempty Y] (P : X → Prop) :
    probability (X × Y) (fun x => P x.1) = probability X P := by
  classical
  have key : ∀ x, probability Y (fun _ => P x) = if P x then 1 else 0 := by
    intro x
    have hY : (Fintype.card Y : ℚ) ≠ 0 := by exact_mod_cast Fintype.card_ne_zero
    by_cases hP : P x
    · simp [hP, probability_eq, hY]
    · simp [hP, probability_eq]
  rw [probability_prod]
  simp only [key]
  rw [Finset.sum_boole, probability_eq]

theorem probability_snd_eq [Nonempty X] (P : Y → Prop) :
    probability (X × Y) (fun x => P x.2) = probability Y P := by
  rw [← probability_equiv (Equiv.prodComm Y X) fun x : X × Y => P x.2]
  exact probability_fst_eq P

theorem probability_digit {A M B : Nat} (hA : 0 < A) (hM : 0 < M) (hB : 0 < B) (P : Fin M → Prop) :
    probability (Fin (A * M * B)) (fun x => P ⟨x.val / B % M, Nat.mod_lt _ hM⟩) = probability (Fin M) P := by
  have : Nonempty (Fin B) := ⟨⟨0, hB⟩⟩
  have : Nonempty (Fin A) := ⟨⟨0, hA⟩⟩
  rw [← probability_equiv finProdFinEquiv]
  have h1 : ∀ x : Fin (A * M) × Fin B, (finProdFinEquiv x).val / B = x.1.val := fun x => by
    change (x.2.val + B * x.1.val) / B = _
    rw [Nat.add_mul_div_left _ _ hB, Nat.div_eq_of_lt x.2.isLt, Nat.zero_add]
  simp only [h1]
  rw [probability_fst_eq fun x : Fin (A * M) => P ⟨x.val % M, Nat.mod_lt _ hM⟩, ← probability_equiv finProdFinEquiv]
  have h2 : ∀ x : Fin A × Fin M, (⟨(finProdFinEquiv x).val % M, Nat.mod_lt _ hM⟩ : Fin M) = x.2 := fun x => by
    refine Fin.ext ?_
    change (x.2.val + M * x.1.val) % M = _
    rw [Nat.add_mul_mod_self_left, Nat.mod_eq_of_lt x.2.isLt]
  simp only [h2]
  exact probability_snd_eq P

/-- The position of a digest is uniform. -/
theorem probability_positionOf {n : Nat} (hn : n ≤ 64) (P : Fin (2 ^ n) → Prop) :
    probability Commitment (fun d => P (positionOf n d)) = probability (Fin (2 ^ n)) P := by
  have h1 : ∀ d : Commitment, beNat (d.val.take 8) = beNat d.val / 256 ^ 24 := fun d => by
    have h := beNat_append (d.val.take 8) (d.val.drop 8)
    have hl : (d.val.drop 8).length = 24 := by rw [List.length_drop, d.property]
    have hlt := beNat_lt (d.val.drop 8)
    rw [List.take_append_drop, hl] at h
    rw [hl] at hlt
    rw [h, Nat.mul_comm, Nat.mul_add_div (by positivity), Nat.div_eq_of_lt hlt, Nat.add_zero]
  generalize hB : (256 : Nat) ^ 24 = B at h1
  have hN : 256 ^ 32 = 2 ^ (64 - n) * 2 ^ n * B := by
    rw [← pow_add, Nat.sub_add_cancel hn, ← hB]
    norm_num
  have hM0 : 0 < 2 ^ n := by positivity
  rw [← probability_digit (A := 2 ^ (64 - n)) (B := B) (by positivity) hM0 (by rw [← hB]; positivity) P,
    ← probability_digest hN fun x => P ⟨x / B % 2 ^ n, Nat.mod_lt _ hM0⟩]
  simp only [positionOf, h1]

theorem probability_positions {n k : Nat} (hn : n ≤ 64) (l : Fin k → Fin (2 ^ n)) :
    probability (Fin k → Commitment) (fun d => positionOf n ∘ d = l) ≤ (1 / 2 ^ n) ^ k := by
  classical
  have := probability_pi_le (A := Commitment) (P := fun i d => positionOf n d = l i) (δ := 1 / 2 ^ n) (by positivity)
    fun i => by
      rw [probability_positionOf hn fun x => x = l i, probability_eq, Fintype.card_fin, Finset.filter_eq']
      simp
  simpa only [funext_iff, Function.comp_apply] using this

/-- A value of the out-of-domain point, whatever the number of candidates. -/
theorem probability_pointOf (domains : List FE) {M : ℚ} (hM : M = 2 ^ 251) (hd : domains.length < M) (r : Nat)
    (z : FE) : probability (Fin r → Commitment) (fun d => pointOf domains (List.ofFn d) = some z)
      ≤ 1 / (M - domains.length) := by
  have hpos : 0 < M - domains.length := by linarith
  have hM0 : 0 < M := lt_of_le_of_lt (by positivity) hd
  induction r with
  | zero =>
    refine (probability_mono (Q := fun _ => False) fun d hd => ?_).trans ?_
    · simp [pointOf] at hd
    · rw [probability_false]
      positivity
  | succ r ih =>
    rw [← probability_equiv (Fin.consEquiv fun _ : Fin (r + 1) => Commitment)]
    have h1 : ∀ x : Commitment × (Fin r → Commitment),
        pointOf domains (List.ofFn (Fin.consEquiv (fun _ : Fin (r + 1) => Commitment) x)) = some z →
        challengeOf x.1 = z ∨ (challengeOf x.1 ∈ domains ∧ pointOf domains (List.ofFn x.2) = some z) := by
      intro x hx
      simp only [Fin.consEquiv_apply, pointOf, List.ofFn_cons, List.map_cons, List.find?_cons] at hx
      by_cases hm : challengeOf x.1 ∈ domains
      · right
        refine ⟨hm, ?_⟩
        simpa [hm, pointOf] using hx
      · left
        simpa [hm] using hx
    refine (probability_mono h1).trans ((probability_or _ _).trans ?_)
    rw [probability_fst_eq fun d => challengeOf d = z]
    refine (add_le_add (probability_challengeOf_eq z)
      (probability_and_le (by positivity) (probability_challengeOf domains) ih)).trans (le_of_eq ?_)
    rw [← hM]
    field_simp
    ring

end Verif.Random
