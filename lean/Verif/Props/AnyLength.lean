import Verif.Lemmas.AnyLength
import Verif.Props.Parameters
import Verif.Props.Verifier

/-!
# C97: the row counts that the verifier accepts
-/

namespace Verif.Props
open Verif.Spec

section general
variable {F T Ch : Type} [Field F] [DecidableEq F] {env : Env F T}

omit [DecidableEq F] in
/-- **C96**, domains, for all even numbers of rows and all blowup factors: let `m` and `k` be the odd parts of the number of
rows and of the blowup factor. The domain is built exactly when its size fits the machine word and the field has a root of
unity of the order of the even part of the size. Its trace points are the first powers of an element whose order is
the even part of the number of rows, so every point is listed `m` times; the extended points are the first powers of an
element whose order is the even part of the size, times the offset, so every point is listed `m * k` times. -/
theorem C96_domain_any {ta : TwoAdic F} {air : Air F Ch} {a b m k : Nat} (ha : 1 ≤ a) (hm : m % 2 = 1) (hk : k % 2 = 1)
    (hn : air.traceLength = m * 2 ^ a) (hb : air.context.proofOptions.blowupFactor.toNat = k * 2 ^ b) :
    (m * 2 ^ a * (k * 2 ^ b) < 2 ^ 64 ∧ a + b ≤ ta.adicity → ∃ d g w, Domain.new ta air = .ok d ∧
      IsPrimitiveRoot g (2 ^ a) ∧ IsPrimitiveRoot w (2 ^ (a + b)) ∧ w ^ 2 ^ b = g ∧ d.tracePrimitiveRoot = g ∧
      d.traceRootsOfUnity = (List.range (m * 2 ^ a)).map (g ^ ·) ∧
      d.ldeRootsOfUnityCoset = (List.range (m * 2 ^ a * (k * 2 ^ b))).map
        (fun i => w ^ i * (air.context.proofOptions.cosetOffset : F)) ∧
      d.cosetOffset = air.context.proofOptions.cosetOffset ∧ d.blowupFactor = k * 2 ^ b ∧
      d.interpolationDomainSize = m * 2 ^ a ∧ d.rootOrder = a ∧ d.ldeRootOrder = a + b) ∧
    (¬ (m * 2 ^ a * (k * 2 ^ b) < 2 ^ 64 ∧ a + b ≤ ta.adicity) → Domain.new ta air = .panic) := by
  have hmul : m * 2 ^ a * (k * 2 ^ b) = m * k * 2 ^ (a + b) := by rw [pow_add]; ring
  have hmk : m * k % 2 = 1 := by rw [Nat.mul_mod, hm, hk]
  have htz : m * 2 ^ a * (k * 2 ^ b) < 2 ^ 64 →
      trailingZeros 64 (m * 2 ^ a) = a ∧ trailingZeros 64 (m * 2 ^ a * (k * 2 ^ b)) = a + b := by
    intro h
    have h1 : 1 ≤ k * 2 ^ b := Nat.mul_pos (by omega) (by positivity)
    refine ⟨trailingZeros_mul_pow hm (lt_of_le_of_lt (Nat.le_mul_of_pos_right _ h1) h), ?_⟩
    rw [hmul] at h ⊢
    exact trailingZeros_mul_pow hmk h
  constructor
  · rintro ⟨hsize, had⟩
    obtain ⟨g, hg⟩ := Option.isSome_iff_exists.mp (ta.defined a ha (by omega))
    obtain ⟨w, hw⟩ := Option.isSome_iff_exists.mp (ta.defined (a + b) (by omega) had)
    obtain ⟨t1, t2⟩ := htz hsize
    refine ⟨{ rootOrder := a, ldeRootsOfUnityCoset := (List.range (m * 2 ^ a * (k * 2 ^ b))).map
                fun i => w ^ i * (air.context.proofOptions.cosetOffset : F),
              ldeRootOrder := a + b, tracePrimitiveRoot := g,
              traceRootsOfUnity := (List.range (m * 2 ^ a)).map fun i => g ^ i * 1,
              cosetOffset := (air.context.proofOptions.cosetOffset : F), blowupFactor := k * 2 ^ b,
              interpolationDomainSize := m * 2 ^ a }, g, w, ?_, ta.primitive a g ha hg,
      ta.primitive _ w (by omega) hw, root_pow ha hg hw, rfl, by simp, rfl, rfl, rfl, rfl, rfl, rfl⟩
    unfold Domain.new
    simp only [hn, hb]
    rw [t1, getRoot_ok.mpr hg, powersCoset_ok.mpr ⟨g, hg, rfl⟩]
    simp only [Outcome.bind_ok]
    rw [if_neg (by omega), t2, powersCoset_ok.mpr ⟨w, hw, rfl⟩]
    rfl
  · intro h
    cases hd : Domain.new ta air with
    | err e => cases e
    | panic => rfl
    | ok d =>
      exfalso
      unfold Domain.new at hd
      simp only [Outcome.bind_eq_ok, hn, hb] at hd
      obtain ⟨g, -, roots, -, hd⟩ := hd
      split at hd
      · cases hd
      · rename_i hlt
        have hlt : m * 2 ^ a * (k * 2 ^ b) < 2 ^ 64 := by omega
        rw [(htz hlt).2] at hd
        simp only [Outcome.bind_eq_ok] at hd
        obtain ⟨lde, hlde, -⟩ := hd
        obtain ⟨w, hw, -⟩ := powersCoset_ok.mp hlde
        rw [ta.undefined _ (by omega)] at hw
        cases hw

/-- **C97** refuted: for every AIR, and every odd `m` for which the field has no roots of unity other than one, the
verifier accepts proofs that claim `m * 2^a` rows, although the prover only makes proofs for powers of two
(`C84_parameters`). -/
theorem C97_any_odd_factor {PI : Type} {new : AirNew F Ch PI} {pi : PI}
    {options : ProofOptions} {air : Air F Ch} {a b m : Nat} (ha : 1 ≤ a) (hm : m % 2 = 1)
    (hn : air.traceLength = m * 2 ^ a) (hbl : air.context.proofOptions.blowupFactor.toNat = 2 ^ b)
    (hfit : Fits air) (hsize : m * 2 ^ a * 2 ^ b < 2 ^ 64) (had : a + b < env.ta.adicity)
    (hroots : ∀ y : F, y ^ m = 1 → y = 1)
    (hsq : ¬ IsSquare (air.context.proofOptions.cosetOffset : F))
    (hnew : new (m * 2 ^ a) pi options = .ok air) (hopt : air.context.proofOptions = options)
    (hc : ∀ ch, ∃ cs, PolynomialConstraints air ch cs)
    (root : Commitment)
    (hb : ∃ bcs, air.boundaryConstraints (challengesAfter env air root) = .ok bcs ∧
      ∀ c ∈ bcs, c.col < air.context.traceColumns)
    (hz : SamplingEnds env air)
    (hgrind : ∀ challenge, Grinding.generateNonce env.keccak challenge
      air.context.proofOptions.grindingFactor.toNat ≠ none) :
    ∃ proof, proof.traceLength = m * 2 ^ a ∧ proof.ldeTraceMerkleRoots = [root] ∧
      verify env new proof pi options = .ok true := by
  obtain ⟨even, nonce, -, h⟩ := forgery_accepted_long (env := env) ha hm hn hbl
    (by intro h0; rw [h0] at hsq; exact hsq ⟨0, by ring⟩) hfit
    (by rw [pow_add, ← mul_assoc]; exact hsize) had.le hroots
    (fun w z hw i => square_notMem' (by omega) hw hsq had z i) hnew hopt hc root root hb hz hgrind
    (rows := List.replicate air.context.transitionOffsets.length (List.replicate air.context.traceColumns 0))
    (by simp) (fun r hr => by rw [(List.mem_replicate.mp hr).2, List.length_replicate]) 0 0 (le_refl _)
  exact ⟨_, rfl, rfl, h⟩

/-- **C97**, the part that holds: an accepted proof claims at least one row, and the extended domain is not larger than
a machine integer counts. What is missing: that the number of rows is a power of two, which is false
(`C97_any_odd_factor`, `C97_cairo_three`). -/
theorem C97_accepted_rows_partial {PI : Type} {new : AirNew F Ch PI} {pi : PI} {options : ProofOptions}
    {proof : StarkProof F} (hnew : ∀ air, new proof.traceLength pi options = .ok air →
      air.traceLength = proof.traceLength ∧ air.context.proofOptions = options)
    (h : verify env new proof pi options = .ok true) :
    0 < proof.traceLength ∧ proof.traceLength * options.blowupFactor.toNat < 2 ^ 64 := by
  unfold verify at h
  split at h
  · simp at h
  simp only [Outcome.bind_eq_ok] at h
  obtain ⟨air, hair, d, hd, c, hc, h⟩ := h
  obtain ⟨hn, ho⟩ := hnew air hair
  unfold Domain.new at hd
  simp only [Outcome.bind_eq_ok, hn, ho] at hd
  obtain ⟨g, -, roots, hroots, hd⟩ := hd
  split at hd
  · cases hd
  rename_i hsmall
  refine ⟨?_, by omega⟩
  simp only [Outcome.bind_eq_ok, Outcome.pure_eq, Outcome.ok.injEq] at hd
  obtain ⟨lde, -, rfl⟩ := hd
  obtain ⟨g', -, hr⟩ := powersCoset_ok.mp hroots
  split at h
  · simp at h
  simp only [Outcome.bind_eq_ok] at h
  obtain ⟨ok2, h2, -⟩ := h
  by_contra h0
  have h0 : proof.traceLength = 0 := by omega
  have hnil : roots = [] := by rw [hr, h0]; rfl
  unfold step2 at h2
  simp [Outcome.bind_eq_ok, hnil, Outcome.ofOptionUnwrap] at h2

/-- The hypotheses of `C96_domain_any` are met: for six rows and the blowup factor four, the domain of Cairo lists six and
24 points. -/
example (pi : PublicInputs) : ∃ d, Domain.new starkRoots
    (CairoAir.air 6 pi ProofOptions.defaultTestOptions) = .ok d ∧ d.traceRootsOfUnity.length = 6 ∧
      d.ldeRootsOfUnityCoset.length = 24 := by
  obtain ⟨d, g, w, hd, -, -, -, -, h1, h2, -⟩ := (C96_domain_any (ta := starkRoots)
    (air := CairoAir.air 6 pi ProofOptions.defaultTestOptions) (a := 1) (b := 2) (m := 3) (k := 1) le_rfl rfl rfl rfl
    rfl).1 ⟨by norm_num, by show _ ≤ 192; norm_num⟩
  exact ⟨d, hd, by rw [h1]; simp, by rw [h2]; simp⟩

end general

open CairoAir
variable {T : Type} {env : Env FE T}

theorem odd_of_coprime {m : Nat} (hcop : Nat.Coprime m (P - 1)) : m % 2 = 1 := by
  have heven : 2 ∣ P - 1 := by rw [P_eq]; norm_num
  by_contra h
  have := Nat.dvd_gcd (show 2 ∣ m by omega) heven
  rw [hcop] at this
  omega

theorem exponent_lt {a m : Nat} (hodd : m % 2 = 1) (hsize : m * 2 ^ a * 4 < 2 ^ 64) : a + 2 < 64 := by
  by_contra hc
  have h1 : 2 ^ 64 ≤ 2 ^ (a + 2) := Nat.pow_le_pow_right (by norm_num) (by omega)
  have h2 : 1 * (2 ^ a * 4) ≤ m * (2 ^ a * 4) := Nat.mul_le_mul_right _ (by omega)
  rw [pow_add] at h1
  rw [← mul_assoc m] at h2
  omega

theorem two_le_rows {a m : Nat} (ha : 1 ≤ a) (hodd : m % 2 = 1) : 2 ≤ m * 2 ^ a := by
  have h1 : 2 ^ 1 ≤ 2 ^ a := Nat.pow_le_pow_right (by norm_num) ha
  have h2 : 1 * 2 ^ a ≤ m * 2 ^ a := Nat.mul_le_mul_right _ (by omega)
  omega

/-- The field has no other roots of unity of an order that is prime to that of its multiplicative group. -/
theorem root_eq_one {m : Nat} (hcop : Nat.Coprime m (P - 1)) (y : FE) (hy : y ^ m = 1) : y = 1 := by
  have hodd := odd_of_coprime hcop
  have hy0 : y ≠ 0 := by
    rintro rfl
    rw [zero_pow (by omega)] at hy
    exact zero_ne_one hy
  have h1 : y ^ (P - 1) = 1 := ZMod.pow_card_sub_one_eq_one hy0
  have h2 := pow_gcd_eq_one.mpr ⟨hy, h1⟩
  rwa [Nat.Coprime.gcd_eq_one hcop, pow_one] at h2

/-- **C97** refuted for Cairo: with the options the program uses, for every claimed run with a step and bounds for the range
check, the verifier accepts proofs that claim `m * 2^a` rows, for every `m` that has no common divisor with the order
of the multiplicative group of the field; the prover makes no such proof. -/
theorem C97_cairo (hta : env.ta = starkRoots) (pi : PublicInputs) (hsteps : pi.numSteps ≠ 0)
    (hmin : pi.rangeCheckMin ≠ none) (hmax : pi.rangeCheckMax ≠ none) {a m : Nat} (ha : 1 ≤ a) (hm : m ≠ 1)
    (hcop : Nat.Coprime m (P - 1)) (hsize : m * 2 ^ a * 4 < 2 ^ 64)
    {root : Commitment} (hmem : ∀ e ∈ pi.publicMemory,
      (challengesAfter env (air (m * 2 ^ a) pi ProofOptions.defaultTestOptions) root).zMemory
        ≠ e.1 + (challengesAfter env (air (m * 2 ^ a) pi ProofOptions.defaultTestOptions) root).alphaMemory * e.2)
    (hz : SamplingEnds env (air (m * 2 ^ a) pi ProofOptions.defaultTestOptions))
    (hgrind : ∀ challenge, Grinding.generateNonce env.keccak challenge 1 ≠ none) :
    (∃ proof, proof.traceLength = m * 2 ^ a ∧ proof.ldeTraceMerkleRoots = [root] ∧
      verifyCairoProof env proof pi ProofOptions.defaultTestOptions = .ok true) ∧
    ∀ (env' : Env FE T) (trace : TraceTable FE) (pi' : PublicInputs) (options : ProofOptions), env'.ta = starkRoots →
      trace.nRows = m * 2 ^ a → generateCairoProof env' trace pi' options = .panic := by
  have hodd := odd_of_coprime hcop
  have ha64 := exponent_lt hodd hsize
  constructor
  · refine C97_any_odd_factor (env := env) (new := CairoAir.new) (pi := pi)
      (air := air (m * 2 ^ a) pi ProofOptions.defaultTestOptions) (b := 2) ha hodd rfl rfl
      (air_fits (two_le_rows ha hodd) _ _) hsize (by rw [hta]; show _ < 192; omega) (root_eq_one hcop)
      three_not_square rfl rfl (fun ch => ⟨_, air_polynomial _ _ _ ch⟩) root ?_ hz hgrind
    obtain ⟨cs, hcs⟩ := boundary_exists pi hsteps hmin hmax (n := m * 2 ^ a)
      (by have := two_le_rows ha hodd; omega) _ hmem
    exact ⟨cs, hcs, boundary_columns hcs⟩
  · intro env' trace pi' options hta' hrows
    refine (C84_cairo hta' trace pi' options).2 fun hu => ?_
    obtain ⟨k, hk⟩ := hu.rowsPower
    rw [hrows] at hk
    have : m ∣ 2 ^ k := ⟨2 ^ a, hk.symm⟩
    obtain ⟨j, -, hj⟩ := (Nat.dvd_prime_pow Nat.prime_two).mp this
    rcases j with _ | j
    · exact hm hj
    · rw [hj, pow_succ] at hodd
      omega

open Verif.Examples in
theorem sampling_six :
    SamplingEnds envStark (air (3 * 2 ^ 1) falseStatement ProofOptions.defaultTestOptions) := by
  intro d t hd
  obtain ⟨d', d0, g, w, hd', L⟩ := domain_mul (ta := envStark.ta)
    (air := air (3 * 2 ^ 1) falseStatement ProofOptions.defaultTestOptions) (a := 1) (b := 2) (m := 3) le_rfl
    (by decide) rfl rfl (by norm_num) (by show _ ≤ 192; norm_num)
  obtain rfl := Outcome.ok.inj (hd.symm.trans hd')
  exact sampleZOodStark _ _ t (by rw [L.lde, L.traceRoots]; simp)

open Verif.Examples in
/-- The hypotheses are met: a statement that no trace satisfies is accepted with a proof that claims six rows. -/
theorem C97_cairo_three :
    (∃ proof, proof.traceLength = 6 ∧
      verifyCairoProof envStark proof falseStatement ProofOptions.defaultTestOptions = .ok true) ∧
    ∀ (trace : TraceTable FE) (pi : PublicInputs) (options : ProofOptions), trace.nRows = 6 →
      generateCairoProof envStark trace pi options = .panic := by
  have hcop : Nat.Coprime 3 (P - 1) := by rw [P_eq]; norm_num
  have key := C97_cairo (env := envStark) rfl falseStatement (by decide) (by decide) (by decide) (a := 1) (m := 3)
    le_rfl (by decide) hcop (by norm_num) (root := digest 0) (fun e he => by cases he) sampling_six generateNonce_stark
  exact ⟨key.1.imp fun _ h => ⟨h.1, h.2.2⟩, fun trace pi options h => key.2 _ _ _ _ rfl h⟩

open Verif.Examples in
/-- The hypotheses of `C97_accepted_rows_partial` are met by the proof of six rows. -/
example : ∃ proof : StarkProof FE, proof.traceLength = 6 ∧
    verifyCairoProof envStark proof falseStatement ProofOptions.defaultTestOptions = .ok true ∧
    0 < proof.traceLength ∧ proof.traceLength * 4 < 2 ^ 64 := by
  obtain ⟨⟨proof, h1, h2⟩, -⟩ := C97_cairo_three
  refine ⟨proof, h1, h2, C97_accepted_rows_partial (env := envStark) (new := CairoAir.new) (fun air h => ?_) h2⟩
  obtain rfl := Outcome.ok.inj h
  exact ⟨rfl, rfl⟩

end Verif.Props
