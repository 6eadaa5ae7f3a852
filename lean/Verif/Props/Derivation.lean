import Verif.Lemmas.Derivation
import Verif.Lemmas.ProveProg
import Verif.Props.RapSound

/-!
# C85: soundness with the challenges as they are derived from digests
-/

namespace Verif.Props
open Spec Random Proximity Fri

/-- **C85**: every event on the draws of the verifier has, when they are derived from uniform digests, at most
`derivationFactor` times the probability that it has for uniform field elements and positions. -/
theorem C85_derived_draws (domains : List FE) (hd : domains.length < 2 ^ 251) {n : Nat} (hn : n ≤ 64)
    {e nb nt k a q r : Nat} (E : (Fin e → FE) × Draws FE nb nt k a q (2 ^ n) → Prop) :
    probability (DigestDraws e nb nt k a q r) (fun ω => ∃ x, derived domains n ω = some x ∧ E x)
      ≤ derivationFactor (e + 2 * nb + 2 * nt + 2 + k + a) domains.length
        * probability ((Fin e → FE) × Draws FE nb nt k a q (2 ^ n)) E := by
  have hdq : (domains.length : ℚ) < 2 ^ 251 := by exact_mod_cast hd
  obtain ⟨M, hM⟩ : ∃ M : ℚ, M = 2 ^ 251 := ⟨_, rfl⟩
  rw [← hM] at hdq
  have hpos : 0 < M - domains.length := by linarith
  have hM0 : 0 < M := lt_of_le_of_lt (by positivity) hdq
  have hP : (0 : ℚ) < Verif.P := by exact_mod_cast (Fact.out : Nat.Prime Verif.P).pos
  have hone : (0 : ℚ) ≤ 1 / M := by positivity
  unfold derivationFactor
  rw [← hM]
  refine probability_transfer _ (by positivity) ?_ E
  rintro ⟨ε, αB, βB, αT, βT, z, γe, γo, γ, ζ, ι⟩
  have h1 : ∀ {j : Nat} (l : Fin j → FE), probability (Fin j → Commitment) (fun d => challengeOf ∘ d = l) ≤ (1 / M) ^ j := by
    intro j l
    rw [hM]
    exact probability_challenges l
  have h2 : ∀ x : FE, probability Commitment (fun d => challengeOf d = x) ≤ 1 / M := by
    intro x
    rw [hM]
    exact probability_challengeOf_eq x
  have key := probability_and_le (by positivity) (h1 ε) (probability_and_le (by positivity) (h1 αB)
    (probability_and_le (by positivity) (h1 βB) (probability_and_le (by positivity) (h1 αT)
    (probability_and_le (by positivity) (h1 βT) (probability_and_le (by positivity)
      (probability_pointOf domains hM hdq r z)
    (probability_and_le (by positivity) (h2 γe) (probability_and_le (by positivity) (h2 γo)
    (probability_and_le (by positivity) (h1 γ) (probability_and_le (by positivity) (h1 ζ)
      (probability_positions hn ι))))))))))
  refine (probability_mono ?_).trans (key.trans (le_of_eq ?_))
  · rintro ⟨ε', αB', βB', αT', βT', points, γe', γo', γ', ζ', ι'⟩ h
    simp only [derived, Option.map_eq_some_iff, Prod.mk.injEq] at h
    obtain ⟨z', hz, i1, i2, i3, i4, i5, rfl, i6, i7, i8, i9, i10⟩ := h
    exact ⟨i1, i2, i3, i4, i5, hz, i6, i7, i8, i9, i10⟩
  · have hc : (Fintype.card FE : ℚ) = Verif.P := by rw [ZMod.card]
    simp only [Fintype.card_prod, Fintype.card_fun, Fintype.card_fin, Nat.cast_mul, Nat.cast_pow, hc]
    have hK : (1 / ((2 : ℕ) : ℚ) ^ n) ^ q * (((2 : ℕ) : ℚ) ^ n) ^ q = 1 := by
      rw [← mul_pow, one_div_mul_cancel (by positivity), one_pow]
    rw [div_eq_mul_one_div (Verif.P : ℚ) M, div_eq_mul_one_div (Verif.P : ℚ) (M - _), eq_div_iff (by positivity)]
    push_cast at hK ⊢
    generalize 1 / (M - (domains.length : ℚ)) = w
    generalize 1 / M = u
    generalize (1 / (2 : ℚ) ^ n) = v at *
    generalize ((2 : ℚ) ^ n) = K at *
    generalize (Verif.P : ℚ) = x at *
    linear_combination (u ^ (e + 2 * nb + 2 * nt + 2 + k + a) * w * x ^ (e + 2 * nb + 2 * nt + 3 + k + a)) * hK

/-- **C85**: for at most 4096 challenges and `2^65` points of the domains the factor is hardly more than one. -/
theorem C85_factor {c D : Nat} (hc : c ≤ 2 ^ 12) (hD : D ≤ 2 ^ 65) : derivationFactor c D ≤ 1 + 1 / 2 ^ 40 := by
  have hDq : (D : ℚ) ≤ 2 ^ 65 := by exact_mod_cast hD
  have hcq : (c : ℚ) ≤ 2 ^ 12 := by exact_mod_cast hc
  have h1 : (Verif.P : ℚ) / 2 ^ 251 ≤ 1 + 1 / 2 ^ 53 := by
    rw [div_le_iff₀ (by positivity), P_eq]
    norm_num
  have h2 : (Verif.P : ℚ) / (2 ^ 251 - D) ≤ 1 + 1 / 2 ^ 53 := by
    have h3 : (2 : ℚ) ^ 251 - 2 ^ 65 ≤ 2 ^ 251 - D := by linarith
    have h4 : (0 : ℚ) < 2 ^ 251 - 2 ^ 65 := by norm_num
    refine (div_le_div_of_nonneg_left (by positivity) h4 h3).trans ?_
    rw [div_le_iff₀ h4, P_eq]
    norm_num
  obtain ⟨y, hy⟩ : ∃ y : ℚ, y = 1 / 2 ^ 53 := ⟨_, rfl⟩
  rw [← hy] at h1 h2
  have hy0 : 0 < y := by rw [hy]; positivity
  have hy1 : y < 1 := by rw [hy]; norm_num
  have h5 : derivationFactor c D ≤ (1 + y) ^ (c + 1) := by
    unfold derivationFactor
    rw [pow_succ (1 + y)]
    exact mul_le_mul (pow_le_pow_left₀ (by positivity) h1 c) h2
      (div_nonneg (by positivity) (by linarith [show (2 : ℚ) ^ 65 ≤ 2 ^ 251 by norm_num])) (by positivity)
  refine h5.trans ?_
  have h6 : 1 + ((c + 1 : Nat) : ℚ) * (-y) ≤ (1 + -y) ^ (c + 1) := one_add_mul_le_pow (by linarith) _
  have h7 : (1 + y) ^ (c + 1) * (1 + -y) ^ (c + 1) ≤ 1 := by
    rw [← mul_pow]
    exact pow_le_one₀ (by nlinarith) (by nlinarith)
  have h8 : ((c + 1 : Nat) : ℚ) * y ≤ (2 ^ 12 + 1) / 2 ^ 53 := by
    rw [hy]
    push_cast
    have : ((c : ℚ) + 1) * (1 / 2 ^ 53) ≤ (2 ^ 12 + 1) * (1 / 2 ^ 53) :=
      mul_le_mul_of_nonneg_right (by linarith) (by positivity)
    linarith
  have h9 : (1 : ℚ) - (2 ^ 12 + 1) / 2 ^ 53 ≤ (1 + -y) ^ (c + 1) := by linarith
  have h10 : (0 : ℚ) < 1 - (2 ^ 12 + 1) / 2 ^ 53 := by norm_num
  have h11 : (1 + y) ^ (c + 1) * (1 - (2 ^ 12 + 1) / 2 ^ 53) ≤ 1 :=
    (mul_le_mul_of_nonneg_left h9 (by positivity)).trans h7
  have h12 : (1 + y) ^ (c + 1) ≤ 1 / (1 - (2 ^ 12 + 1) / 2 ^ 53) := by rwa [le_div_iff₀ h10]
  refine h12.trans ?_
  norm_num

/-- **C85**: what the code derives from a transcript. One challenge after the other is that of one digest after the
other, and so are the positions of the queries; the out-of-domain point is that of the digests up to the first whose
challenge is outside of the domains, and it is found exactly when there is one. -/
theorem C85_samplers {T : Type} {env : Env FE T} (hof : ∀ d, randomnessToField 252 d = .ok (env.ofDigest d)) (t : T) :
    (∀ n, (env.samples n t).1 = (digests env.tr n t).map challengeOf) ∧
    (∀ n q, ∃ t', sampleIndices env (2 ^ n) q t = .ok ((digests env.tr q t).map fun d => (positionOf n d).val, t')) ∧
    (∀ lde trace z, (∃ t', env.tr.sampleZOod env.ofDigest lde trace t = some (z, t')) ↔
      ∃ r, pointOf (lde ++ trace) (digests env.tr r t) = some z) := by
  have h0 : ∀ d, env.ofDigest d = challengeOf d := fun d => Outcome.ok.inj ((hof d).symm.trans (challengeOf_spec d))
  refine ⟨fun n => ?_, fun n q => ?_, fun lde trace z => ⟨?_, ?_⟩⟩
  · induction n generalizing t with
    | zero => rfl
    | succ n ih =>
      have := ih (env.tr.challenge t).2
      simp only [Env.samples] at this ⊢
      simp only [Transcript.batchSample, Transcript.toField, digests, List.map_cons, this, h0]
  · induction q generalizing t with
    | zero => exact ⟨t, rfl⟩
    | succ q ih =>
      obtain ⟨t', h⟩ := ih (env.tr.challenge t).2
      refine ⟨t', ?_⟩
      simp only [sampleIndices, if_neg (show ¬ (2 ^ n = 0) by positivity), Transcript.toUsize, h, Outcome.bind_ok,
        Outcome.pure_eq, digests, List.map_cons, positionOf]
  · rintro ⟨t', h⟩
    have hex : ∃ k, (env.tr.toField env.ofDigest (env.tr.after k t)).1 ∉ lde ++ trace := by
      by_contra hc
      unfold Transcript.sampleZOod at h
      rw [dif_neg (by simpa using hc)] at h
      cases h
    obtain ⟨k, hk⟩ := hex
    induction k generalizing t with
    | zero =>
      have hk : env.ofDigest (env.tr.challenge t).1 ∉ lde ++ trace := hk
      rw [Transcript.sampleZOod_step, if_neg hk] at h
      refine ⟨1, ?_⟩
      have h1 := congrArg Prod.fst (Option.some.inj h)
      simp only [Transcript.toField, h0] at h1 hk
      simp only [pointOf, digests, List.map_cons, List.find?_cons, h1, decide_eq_true (h1 ▸ hk)]
    | succ k ih =>
      rw [Transcript.sampleZOod_step] at h
      split at h
      · rename_i hm
        obtain ⟨r, hr⟩ := ih _ h hk
        refine ⟨r + 1, ?_⟩
        rw [h0] at hm
        simp only [pointOf, digests, List.map_cons, List.find?_cons, decide_eq_false (not_not.2 hm)]
        exact hr
      · rename_i hm
        refine ⟨1, ?_⟩
        have h1 := congrArg Prod.fst (Option.some.inj h)
        simp only [Transcript.toField, h0] at h1 hm
        simp only [pointOf, digests, List.map_cons, List.find?_cons, h1, decide_eq_true (h1 ▸ hm)]
  · rintro ⟨r, hr⟩
    induction r generalizing t with
    | zero => simp [pointOf, digests] at hr
    | succ r ih =>
      rw [Transcript.sampleZOod_step, h0]
      simp only [pointOf, digests, List.map_cons, List.find?_cons] at hr
      split
      · rename_i hm
        simp only [decide_eq_false (not_not.2 hm)] at hr
        exact ih _ hr
      · rename_i hm
        simp only [decide_eq_true hm] at hr
        exact ⟨_, by rw [Transcript.toField, h0, Option.some.inj hr]⟩

/-- **C85**: the positions of the queries are uniform and independent. The probability that `q` of them all miss a set
of positions is the one that the number of queries is chosen by. -/
theorem C85_queries_miss {n : Nat} (hn : n ≤ 64) (bad : Finset (Fin (2 ^ n))) (q : Nat) :
    probability (Fin q → Commitment) (fun ω => ∀ i, positionOf n (ω i) ∉ bad) = (1 - bad.card / 2 ^ n) ^ q := by
  classical
  rw [probability_all q fun d => positionOf n d ∉ bad, probability_positionOf hn fun x => x ∉ bad]
  congr 1
  have : Nonempty (Fin (2 ^ n)) := ⟨⟨0, by positivity⟩⟩
  rw [probability_not, probability_eq]
  simp

/-- **C85**, any AIR over the field of the crate: if the main columns, committed before the challenges, do not decode to
a table with a property that the constraints force, then a prover that is given the digests one after the other wins
with at most `derivationFactor` times the probability of C73. -/
theorem C85_main_error {Ch : Type} {ta : TwoAdic FE} {air : Air FE Ch} {a b : Nat} (S : Setting air a b)
    {d : Domain FE} (hd : Domain.new ta air = .ok d) {w : FE} (hw : ta.root (a + b) = some w)
    (hc : ∀ ch, ∃ cs, PolynomialConstraints air ch cs ∧ cs.length = air.context.numTransitionConstraints) {nb : Nat}
    (hb : ∀ ch boundary, air.boundaryConstraints ch = .ok boundary → boundary.length = nb ∧
      ∀ c ∈ boundary, c.col < air.context.traceColumns ∧ c.step < 2 ^ a)
    {main : List (Nat → FE)} {aux : List FE → List (Nat → FE)}
    (hcols : ∀ e, main.length + (aux e).length = air.context.traceColumns)
    {R m : Nat} (hR : DecodingRadius a b R m) {Q : List (List FE) → Prop}
    (hQ : ∀ rows ch, rows.length = 2 ^ a → (∀ r ∈ rows, r.length = air.context.traceColumns) →
      Satisfies air rows air.context.traceColumns ch → Q (rows.map fun r => r.take main.length))
    (hno : ¬ DecodesTo d w air.context.proofOptions.cosetOffset a b R main Q)
    (P : List FE → StarkStrategy FE) (q r : Nat) :
    probability (DigestDraws air.numRapChallenges nb air.context.numTransitionConstraints
        (air.context.traceColumns * air.context.transitionOffsets.length) a q r)
      (fun ω => ∃ x, derived (d.ldeRootsOfUnityCoset ++ d.traceRootsOfUnity) (a + b) ω = some x ∧
        (P (List.ofFn x.1)).Wins air d a b w (air.rapChallenges (List.ofFn x.1)) (main ++ aux (List.ofFn x.1)) x.2)
    ≤ derivationFactor (air.numRapChallenges + 2 * nb + 2 * air.context.numTransitionConstraints + 2
          + air.context.traceColumns * air.context.transitionOffsets.length + a) (2 ^ (a + b) + 2 ^ a)
        * soundnessError Verif.P nb air.context.numTransitionConstraints air.context.traceColumns
          air.context.transitionOffsets.length a b R m q := by
  obtain ⟨g, w', D⟩ := domain_new S.rows S.length S.blowup hd
  have hl : (d.ldeRootsOfUnityCoset ++ d.traceRootsOfUnity).length = 2 ^ (a + b) + 2 ^ a := by
    rw [D.lde, D.traceRoots]
    simp
  have h1 : 2 ^ (a + b) ≤ 2 ^ 64 := Nat.pow_le_pow_right (by norm_num) D.small.le
  have h2 : 2 ^ a ≤ 2 ^ 64 := Nat.pow_le_pow_right (by norm_num) (by have := D.small; omega)
  have h3 : 2 ^ (a + b) + 2 ^ a < 2 ^ 251 := by
    have : (2 : Nat) ^ 64 + 2 ^ 64 < 2 ^ 251 := by norm_num
    omega
  refine (C85_derived_draws _ (by rw [hl]; exact h3) D.small.le
    (fun x => (P (List.ofFn x.1)).Wins air d a b w (air.rapChallenges (List.ofFn x.1)) (main ++ aux (List.ofFn x.1))
      x.2)).trans ?_
  rw [hl]
  have hcard : Fintype.card FE = Verif.P := ZMod.card _
  have := C73_main_error S hd hw hc hb hcols hR hQ hno P q
  rw [hcard] at this
  refine mul_le_mul_of_nonneg_left this ?_
  have h4 : ((2 ^ (a + b) + 2 ^ a : Nat) : ℚ) ≤ 2 ^ 251 := by exact_mod_cast h3.le
  exact mul_nonneg (by positivity) (div_nonneg (by positivity) (by linarith))

section cairo
open CairoAir

/-- **C85**, the Cairo AIR: as in C73, with the draws of the verifier derived from uniform digests. -/
theorem C85_cairo {ta : TwoAdic FE} {opts : ProofOptions} {a b : Nat} {d : Domain FE} {w : FE} {R m : Nat}
    (ha : 1 ≤ a) (hb : 1 ≤ b) {pi : PublicInputs} (hsteps : pi.numSteps ≤ 2 ^ a)
    (hblow : opts.blowupFactor.toNat = 2 ^ b) (hoff : (opts.cosetOffset : FE) ≠ 0)
    (hd : Domain.new ta (CairoAir.air (2 ^ a) pi opts) = .ok d) (hw : ta.root (a + b) = some w)
    (hR : DecodingRadius a b R m) (main : List (Nat → FE))
    (hmain : main.length = traceColumns (hasRcBuiltin pi) - 18)
    (hno : ¬ DecodesTo d w opts.cosetOffset a b R main (SelectedRun pi))
    (aux : List FE → List (Nat → FE)) (haux : ∀ e, (aux e).length = 18) (P : List FE → StarkStrategy FE) (q r : Nat) :
    probability (DigestDraws 3 8 (numTransitionConstraints (hasRcBuiltin pi))
          (traceColumns (hasRcBuiltin pi) * 2) a q r)
        (fun ω => ∃ e draws, derived (d.ldeRootsOfUnityCoset ++ d.traceRootsOfUnity) (a + b) ω = some (e, draws) ∧
          (P (List.ofFn e)).Wins (CairoAir.air (2 ^ a) pi opts) d a b w ⟨e 0, e 1, e 2⟩ (main ++ aux (List.ofFn e))
            draws)
      ≤ (1 + 1 / 2 ^ 40) * soundnessError Verif.P 8 (numTransitionConstraints (hasRcBuiltin pi))
          (traceColumns (hasRcBuiltin pi)) 2 a b R m q := by
  obtain ⟨g, w', D⟩ := domain_new (air := CairoAir.air (2 ^ a) pi opts) ha rfl hblow hd
  have hl : (d.ldeRootsOfUnityCoset ++ d.traceRootsOfUnity).length = 2 ^ (a + b) + 2 ^ a := by
    rw [D.lde, D.traceRoots]
    simp
  have h1 : 2 ^ (a + b) ≤ 2 ^ 64 := Nat.pow_le_pow_right (by norm_num) D.small.le
  have h2 : 2 ^ a ≤ 2 ^ 64 := Nat.pow_le_pow_right (by norm_num) (by have := D.small; omega)
  have h3 : 2 ^ (a + b) + 2 ^ a ≤ 2 ^ 65 := by
    have : (2 : Nat) ^ 64 + 2 ^ 64 = 2 ^ 65 := by norm_num
    omega
  have h3' : 2 ^ (a + b) + 2 ^ a < 2 ^ 251 := lt_of_le_of_lt h3 (by norm_num)
  have hcount : 3 + 2 * 8 + 2 * numTransitionConstraints (hasRcBuiltin pi) + 2 + traceColumns (hasRcBuiltin pi) * 2 + a
      ≤ 2 ^ 12 := by
    have := D.small
    have h5 : numTransitionConstraints (hasRcBuiltin pi) ≤ 50 ∧ traceColumns (hasRcBuiltin pi) ≤ 61 := by
      cases hasRcBuiltin pi <;> decide
    omega
  have := C73_cairo ha hb hsteps hblow hoff hd hw hR main hmain hno aux haux P q
  have h4 := C85_derived_draws (r := r) (d.ldeRootsOfUnityCoset ++ d.traceRootsOfUnity) (by rw [hl]; exact h3') D.small.le
    (fun x : (Fin 3 → FE) × Draws FE 8 (numTransitionConstraints (hasRcBuiltin pi))
          (traceColumns (hasRcBuiltin pi) * 2) a q (2 ^ (a + b)) =>
      (P (List.ofFn x.1)).Wins (CairoAir.air (2 ^ a) pi opts) d a b w ⟨x.1 0, x.1 1, x.1 2⟩
        (main ++ aux (List.ofFn x.1)) x.2)
  rw [hl] at h4
  refine (probability_mono ?_).trans (h4.trans (mul_le_mul (C85_factor hcount h3) this (probability_nonneg _)
    (by positivity)))
  rintro ω ⟨e, draws, h5, h6⟩
  exact ⟨(e, draws), h5, h6⟩

end cairo

/-- The hypotheses of `C85_cairo` are met by the claim of the example run, with eight rows extended to 32, `R = 7` and
columns of zeros. -/
example : ∃ (d : Domain FE) (w : FE), starkRoots.root (3 + 2) = some w ∧
    Domain.new starkRoots (CairoAir.air (2 ^ 3) Examples.main0.2 ⟨4, 3, 3, 1⟩) = .ok d ∧
    Examples.main0.2.numSteps ≤ 2 ^ 3 ∧ DecodingRadius 3 2 7 8 ∧
    (List.replicate 34 fun _ : Nat => (0 : FE)).length
      = CairoAir.traceColumns (CairoAir.hasRcBuiltin Examples.main0.2) - 18 ∧
    ¬ DecodesTo d w ((3 : Nat) : FE) 3 2 7 (List.replicate 34 fun _ => 0) (SelectedRun Examples.main0.2) := by
  obtain ⟨w, hw⟩ := Option.isSome_iff_exists.mp (starkRoots.defined (3 + 2) (by norm_num) (by decide))
  obtain ⟨d, hd⟩ := domain_exists (ta := starkRoots) (air := CairoAir.air (2 ^ 3) Examples.main0.2 ⟨4, 3, 3, 1⟩)
    (a := 3) (b := 2) (by norm_num) rfl rfl (by norm_num) (by decide)
  refine ⟨d, w, hw, hd, by decide +kernel, radius_third (by norm_num), by decide +kernel, ?_⟩
  refine zeros_not_decode (air := CairoAir.air (2 ^ 3) Examples.main0.2 ⟨4, 3, 3, 1⟩) (a := 3) (b := 2) (by norm_num)
    rfl rfl (by change ((3 : Nat) : FE) ≠ 0; decide +kernel) hd hw (by norm_num) 34 ?_
  intro h
  have h1 := h.first.1
  have h2 : Examples.main0.2.pcInit = 1 := by decide +kernel
  rw [h2] at h1
  exact absurd h1 (by decide +kernel)

/-- The digest of 31 zeros and a five: the challenge 5 and, from its first eight bytes, the position 0; a digest whose
eighth byte is 11: the position 3 among eight, and a challenge outside of the domain `[5]`. -/
example : challengeOf ⟨List.replicate 31 0 ++ [5], rfl⟩ = 5 ∧
    positionOf 3 ⟨List.replicate 7 0 ++ 11 :: List.replicate 24 0, rfl⟩ = 3 ∧
    pointOf [5] [⟨List.replicate 31 0 ++ [5], rfl⟩, ⟨List.replicate 31 0 ++ [6], rfl⟩] = some 6 := by
  refine ⟨?_, ?_, ?_⟩ <;> decide +kernel

/-- With three queries out of eight positions of which half are bad, all miss with probability one eighth. -/
example : probability (Fin 3 → Commitment) (fun ω => ∀ i, positionOf 3 (ω i) ∉ ({0, 2, 4, 6} : Finset (Fin (2 ^ 3))))
    = 1 / 8 := by
  rw [C85_queries_miss (by norm_num)]
  rw [show ({0, 2, 4, 6} : Finset (Fin (2 ^ 3))).card = 4 by decide]
  norm_num

end Verif.Props
