import Verif.Lemmas.Release
import Verif.Props.Verifier
import Verif.Props.NoPanic

/-!
# The verifier gives the same answer in every build
-/

namespace Verif.Props
noncomputable section
open Polynomial CairoAir Verif.Spec
variable {T : Type}

theorem cairo_sizes {n : Nat} (hn : n < 2 ^ 63) (pi : PublicInputs) (options : ProofOptions) :
    Sizes (air n pi options) where
  bound := by show 2 * n < 2 ^ 64; omega
  columns := by
    show traceColumns (hasRcBuiltin pi) < 2 ^ 64
    cases hasRcBuiltin pi <;> decide
  degrees := by
    show ∀ d ∈ transitionDegrees (hasRcBuiltin pi), d < 2 ^ 64
    cases hasRcBuiltin pi <;> decide

theorem cairo_noUnderflow {n : Nat} (pi : PublicInputs) (options : ProofOptions) :
    NoUnderflow (air n pi options) where
  length := by show n ≤ 2 * n; omega
  degree := by
    show ∀ d ∈ transitionDegrees (hasRcBuiltin pi), 1 ≤ d
    cases hasRcBuiltin pi <;> decide
  max := by
    show ∀ m, (transitionDegrees (hasRcBuiltin pi)).max? = some m → ∀ k < m, n * k ≤ 2 * n
    have : (transitionDegrees (hasRcBuiltin pi)).max? = some 3 := by cases hasRcBuiltin pi <;> decide +kernel
    rw [this]
    rintro m ⟨⟩ k hk
    have : k ≤ 2 := by omega
    calc n * k ≤ n * 2 := Nat.mul_le_mul_left _ this
      _ = 2 * n := by omega
  columns := by
    show numberAuxiliaryRapColumns ≤ traceColumns (hasRcBuiltin pi)
    cases hasRcBuiltin pi <;> decide

theorem cairo_boundary_agree {p : Prop} {pi : PublicInputs} (hsteps : pi.numSteps < 2 ^ 64) {n : Nat}
    (hn : n < 2 ^ 64) (h : p → pi.numSteps ≠ 0 ∧ n ≠ 0) (ch : RAPChallenges FE) :
    Agree p (boundaryConstraints pi n ch) (boundaryConstraintsRelease pi n ch) := by
  unfold boundaryConstraints boundaryConstraintsRelease
  split
  · rename_i h0
    refine .inr ⟨rfl, fun hp => ?_⟩
    have := h hp
    omega
  · rename_i h0
    rw [wrappingSub_of_le hsteps (by omega), wrappingSub_of_le hn (by omega)]
    exact .inl rfl

theorem log2_pow {n a : Nat} (h : n = 2 ^ a) : n = 2 ^ Nat.log2 n := by
  rw [h, Nat.log2_two_pow]

theorem newDebug_eq (n : Nat) (pi : PublicInputs) (options : ProofOptions) :
    newDebug n pi options = if n = 2 ^ Nat.log2 n then .ok (air n pi options) else .panic := by
  have h1 : (air n pi options).context.transitionDegrees.length
      = (air n pi options).context.numTransitionConstraints := by
    show (transitionDegrees (hasRcBuiltin pi)).length = numTransitionConstraints (hasRcBuiltin pi)
    cases hasRcBuiltin pi <;> decide
  have h2 : (air n pi options).context.transitionExemptions.length
      = (air n pi options).context.numTransitionConstraints := by
    show (CairoAir.transitionExemptions (hasRcBuiltin pi)).length = numTransitionConstraints (hasRcBuiltin pi)
    cases hasRcBuiltin pi <;> decide
  unfold newDebug
  dsimp only
  split
  · rename_i h
    rfl
  · rename_i h
    rw [if_neg (by rw [h1]; simp), if_neg (by rw [h2]; simp), if_pos (not_not.mp h)]

theorem ldeOrder {n a b : Nat} {options : ProofOptions} {pi : PublicInputs} {ta : TwoAdic FE} (hn : n = 2 ^ a)
    (hb : options.blowupFactor.toNat = 2 ^ b) {d : Domain FE} (hd : Domain.new ta (air n pi options) = .ok d) :
    d.ldeRootOrder = a + b ∧ a + b < 64 := by
  unfold Domain.new at hd
  simp only [Outcome.bind_eq_ok] at hd
  obtain ⟨g, -, roots, -, hd⟩ := hd
  split at hd
  · cases hd
  rename_i hlt
  simp only [Outcome.bind_eq_ok, Outcome.pure_eq, Outcome.ok.injEq] at hd
  obtain ⟨lde, -, rfl⟩ := hd
  have hmul : (air n pi options).traceLength * (air n pi options).context.proofOptions.blowupFactor.toNat
      = 2 ^ (a + b) := by
    show n * options.blowupFactor.toNat = _
    rw [hn, hb, pow_add]
  rw [hmul] at hlt
  have h64 : a + b < 64 := (Nat.pow_lt_pow_iff_right (by norm_num : 1 < 2)).mp (not_le.mp hlt)
  refine ⟨?_, h64⟩
  show trailingZeros 64 (_ * _) = _
  rw [hmul, trailingZeros_pow h64]

/-- **C74.** The debug build of the verifier of Cairo proofs and the release build give the same answer, except that
the debug build panics where the release build may answer: on a claim of zero steps, on a trace length that is not a
power of two, and on proofs with more FRI layers than the extended domain can be halved. -/
theorem C74_builds_agree (env : Env FE T) (proof : StarkProof FE) (pi : PublicInputs) (options : ProofOptions)
    {b : Nat} (hb : options.blowupFactor.toNat = 2 ^ b) (hn : proof.traceLength < 2 ^ 63)
    (hsteps : pi.numSteps < 2 ^ 64) (hlen : ∀ d ∈ proof.queryList, d.layersEvaluations.length < 2 ^ 64) :
    verifyCairoProofDebug env proof pi options = verifyCairoProofRelease env proof pi options ∨
      (verifyCairoProofDebug env proof pi options = .panic ∧
        (pi.numSteps = 0 ∨ (∀ a, proof.traceLength ≠ 2 ^ a) ∨
          ∃ a, proof.traceLength = 2 ^ a ∧ a + b + 1 < proof.friLayersMerkleRoots.length)) := by
  by_cases hpow : ∃ a, proof.traceLength = 2 ^ a
  · obtain ⟨a, ha⟩ := hpow
    have key : Agree (pi.numSteps ≠ 0 ∧ proof.friLayersMerkleRoots.length ≤ a + b + 1)
        (verifyCairoProofDebug env proof pi options) (verifyCairoProofRelease env proof pi options) := by
      refine verify_agree (air := air proof.traceLength pi options) (by rw [newDebug_eq, if_pos (log2_pow ha)]) rfl
        (cairo_sizes hn pi options) (fun _ => cairo_noUnderflow pi options)
        (fun ch => cairo_boundary_agree hsteps (by omega) (fun hp => ⟨hp.1, by rw [ha]; positivity⟩) ch)
        (fun d hd => ?_) hlen
      obtain ⟨h1, h2⟩ := ldeOrder ha hb hd
      rw [h1]
      exact ⟨h2, fun hp => hp.2⟩
    rcases key with h | ⟨h, hp⟩
    · exact .inl h
    · refine .inr ⟨h, ?_⟩
      by_cases h0 : pi.numSteps = 0
      · exact .inl h0
      · exact .inr (.inr ⟨a, ha, not_le.mp fun hle => hp ⟨h0, hle⟩⟩)
  · push Not at hpow
    by_cases hq : proof.queryList.length < options.friNumberOfQueries
    · left
      unfold verifyCairoProofDebug verifyCairoProofRelease verify verifyRelease
      rw [if_pos hq, if_pos hq]
    · refine .inr ⟨?_, .inr (.inl hpow)⟩
      unfold verifyCairoProofDebug verify
      rw [if_neg hq, newDebug_eq, if_neg (hpow _)]
      rfl

/-- **C74.** Answers of `verifyCairoProof`, the model the other properties are about, are answers of the release
build; for trace lengths that are powers of two it is the debug build. -/
theorem C74_model_between (env : Env FE T) (proof : StarkProof FE) (pi : PublicInputs) (options : ProofOptions)
    {a b : Nat} (ha : proof.traceLength = 2 ^ a) (hb : options.blowupFactor.toNat = 2 ^ b)
    (hn : proof.traceLength < 2 ^ 63) (hsteps : pi.numSteps < 2 ^ 64)
    (hlen : ∀ d ∈ proof.queryList, d.layersEvaluations.length < 2 ^ 64) :
    verifyCairoProofDebug env proof pi options = verifyCairoProof env proof pi options ∧
    ∀ r, verifyCairoProof env proof pi options = .ok r → verifyCairoProofRelease env proof pi options = .ok r := by
  have hd : verifyCairoProofDebug env proof pi options = verifyCairoProof env proof pi options := by
    unfold verifyCairoProofDebug verifyCairoProof verify
    rw [newDebug_eq, if_pos (log2_pow ha)]
    rfl
  refine ⟨hd, fun r hr => ?_⟩
  rcases C74_builds_agree env proof pi options hb hn hsteps hlen with h | ⟨h, -⟩
  · rw [← h, hd, hr]
  · rw [hd, hr] at h
    cases h

/-- Boundary constraints that say the same: their steps are the same modulo the order of `g`. -/
def SameSteps (g : FE) (x y : Outcome Empty (List (BoundaryConstraint FE))) : Prop :=
  (x = .panic ∧ y = .panic) ∨ ∃ bs bs', x = .ok bs ∧ y = .ok bs' ∧
    List.Forall₂ (fun c c' => c.col = c'.col ∧ c.value = c'.value ∧ g ^ c.step = g ^ c'.step) bs bs'

theorem oodBoundary_steps {proof : StarkProof FE} {domain : Domain FE} {z : FE} {coeffs : List (FE × FE)}
    {adjustment : Nat} {bs bs' : List (BoundaryConstraint FE)}
    (h : List.Forall₂ (fun c c' => c.col = c'.col ∧ c.value = c'.value ∧
      domain.tracePrimitiveRoot ^ c.step = domain.tracePrimitiveRoot ^ c'.step) bs bs') :
    oodBoundary proof bs domain z coeffs adjustment = oodBoundary proof bs' domain z coeffs adjustment := by
  unfold oodBoundary
  congr 1
  induction h with
  | nil => rfl
  | cons h _ ih =>
    obtain ⟨h1, h2, h3⟩ := h
    simp only [mapOutcome]
    rw [ih, h1, h2, h3]

theorem verifyRelease_steps {env : Env FE T} {new new' : AirNew FE (RAPChallenges FE) PublicInputs}
    {proof : StarkProof FE} {pi pi' : PublicInputs} {options : ProofOptions} {A : Air FE (RAPChallenges FE)}
    {f f' : RAPChallenges FE → Outcome Empty (List (BoundaryConstraint FE))}
    (h : new proof.traceLength pi options = .ok { A with boundaryConstraints := f })
    (h' : new' proof.traceLength pi' options = .ok { A with boundaryConstraints := f' })
    (hs : ∀ d, Domain.new env.ta A = .ok d → ∀ ch, SameSteps d.tracePrimitiveRoot (f ch) (f' ch)) :
    verifyRelease env new proof pi options = verifyRelease env new' proof pi' options := by
  unfold verifyRelease
  split
  · rfl
  rw [h, h', Outcome.bind_ok, Outcome.bind_ok]
  change (Domain.new env.ta A >>= _) = (Domain.new env.ta A >>= _)
  cases hd : Domain.new env.ta A with
  | panic => rfl
  | err e => exact e.elim
  | ok d =>
    have hs := hs d hd
    have h1 : step1 env { A with boundaryConstraints := f } proof d env.tr.init
        = step1 env { A with boundaryConstraints := f' } proof d env.tr.init := by
      unfold step1
      congr 1
      funext root
      dsimp only
      have := hs (buildRapChallenges env A (env.tr.append env.tr.init root.val)).1
      change (f (buildRapChallenges env A (env.tr.append env.tr.init root.val)).1 >>= _)
        = (f' (buildRapChallenges env A (env.tr.append env.tr.init root.val)).1 >>= _)
      rcases this with ⟨h1, h2⟩ | ⟨bs, bs', h1, h2, h3⟩
      · rw [h1, h2]; rfl
      · rw [h1, h2, Outcome.bind_ok, Outcome.bind_ok, h3.length_eq]
        rfl
    have h2 : ∀ c, step2Release { A with boundaryConstraints := f } proof d c
        = step2Release { A with boundaryConstraints := f' } proof d c := by
      intro c
      unfold step2Release
      dsimp only
      rcases hs c.rapChallenges with ⟨h1, h2⟩ | ⟨bs, bs', h1, h2, h3⟩
      · rw [h1, h2]; rfl
      · rw [h1, h2, Outcome.bind_ok, Outcome.bind_ok, oodBoundary_steps h3]
        rfl
    rw [Outcome.bind_ok, Outcome.bind_ok, h1]
    congr 1
    funext c
    rw [h2]
    rfl

/-- **C74.** In release builds a claim of zero steps is the claim that the whole trace was executed: the two are
accepted with the same proofs. (Debug builds panic on the former, `C55_missing_bounds_panic`.) -/
theorem C74_zero_steps_is_full_trace (env : Env FE T) (proof : StarkProof FE) (pi : PublicInputs)
    (options : ProofOptions) {a : Nat} (ha : 1 ≤ a) (ha' : a < 64) (hn : proof.traceLength = 2 ^ a) :
    verifyCairoProofRelease env proof { pi with numSteps := 0 } options =
      verifyCairoProofRelease env proof { pi with numSteps := proof.traceLength } options := by
  refine verifyRelease_steps (A := air proof.traceLength pi options) rfl rfl fun d hd ch => ?_
  have hg : d.tracePrimitiveRoot ^ (2 ^ a) = 1 := by
    unfold Domain.new at hd
    simp only [Outcome.bind_eq_ok] at hd
    obtain ⟨g, hroot, roots, -, hd⟩ := hd
    split at hd
    · cases hd
    simp only [Outcome.bind_eq_ok, Outcome.pure_eq, Outcome.ok.injEq] at hd
    obtain ⟨lde, -, rfl⟩ := hd
    rw [show (air proof.traceLength pi options).traceLength = 2 ^ a from hn, trailingZeros_pow ha', getRoot_ok] at hroot
    exact (env.ta.primitive a _ ha hroot).pow_eq_one
  have hw : d.tracePrimitiveRoot ^ wrappingSub 0 1 = d.tracePrimitiveRoot ^ wrappingSub proof.traceLength 1 := by
    rw [hn, wrappingSub_of_le (Nat.pow_lt_pow_right (by norm_num) ha') (Nat.one_le_two_pow),
      show wrappingSub 0 1 = 2 ^ 64 - 1 from rfl]
    have h64 : 2 ^ 64 - 1 = 2 ^ a * (2 ^ (64 - a) - 1) + (2 ^ a - 1) := by
      have h1 : (2 : Nat) ^ 64 = 2 ^ a * 2 ^ (64 - a) := by rw [← pow_add]; congr 1; omega
      have h2 : 1 ≤ (2 : Nat) ^ (64 - a) := Nat.one_le_two_pow
      have h3 : 1 ≤ (2 : Nat) ^ a := Nat.one_le_two_pow
      rw [h1, Nat.mul_sub, Nat.mul_one]
      have := Nat.mul_le_mul_left (2 ^ a) h2
      omega
    rw [h64, pow_add, pow_mul, hg, one_pow, one_mul]
  show SameSteps _ (boundaryConstraintsRelease { pi with numSteps := 0 } _ ch)
    (boundaryConstraintsRelease { pi with numSteps := proof.traceLength } _ ch)
  unfold boundaryConstraintsRelease
  dsimp only
  cases inv (pi.publicMemory.foldl (fun product e => product * (ch.zMemory - (e.1 + ch.alphaMemory * e.2))) 1) with
  | panic => exact .inl ⟨rfl, rfl⟩
  | err e => exact e.elim
  | ok x =>
    cases pi.rangeCheckMin with
    | none => exact .inl ⟨rfl, rfl⟩
    | some lo =>
      cases pi.rangeCheckMax with
      | none => exact .inl ⟨rfl, rfl⟩
      | some hi =>
        refine .inr ⟨_, _, rfl, rfl, ?_⟩
        exact .cons ⟨rfl, rfl, rfl⟩ (.cons ⟨rfl, rfl, rfl⟩ (.cons ⟨rfl, rfl, hw⟩ (.cons ⟨rfl, rfl, hw⟩
          (.cons ⟨rfl, rfl, rfl⟩ (.cons ⟨rfl, rfl, rfl⟩ (.cons ⟨rfl, rfl, rfl⟩ (.cons ⟨rfl, rfl, rfl⟩ .nil)))))))

theorem exists_forgery {env : Env FE T} (pi : PublicInputs) (hsteps : pi.numSteps ≠ 0)
    (hmin : pi.rangeCheckMin ≠ none) (hmax : pi.rangeCheckMax ≠ none) {a : Nat} (ha : 1 ≤ a)
    (hab : a + 2 < 64) (had : a + 2 < env.ta.adicity)
    {root : Commitment} (hmem : ∀ e ∈ pi.publicMemory,
      (challengesAfter env (air (2 ^ a) pi ProofOptions.defaultTestOptions) root).zMemory
        ≠ e.1 + (challengesAfter env (air (2 ^ a) pi ProofOptions.defaultTestOptions) root).alphaMemory * e.2)
    (hz : SamplingEnds env (air (2 ^ a) pi ProofOptions.defaultTestOptions))
    (hgrind : ∀ challenge, Grinding.generateNonce env.keccak challenge 1 ≠ none) :
    ∃ proof, proof.traceLength = 2 ^ a ∧ proof.queryList.length = 3 ∧
      (∀ d ∈ proof.queryList, d.layersEvaluations.length < 2 ^ 64) ∧
      verifyCairoProof env proof pi ProofOptions.defaultTestOptions = .ok true := by
  have S := cairo_setting ha pi
  have key := C46_forged_proof_accepted (env := env) (new := CairoAir.new) (pi := pi) S hab had three_not_square rfl
    rfl (fun ch => ⟨_, air_polynomial _ _ _ ch⟩) root root (by
      obtain ⟨cs, hcs⟩ := boundary_exists pi hsteps hmin hmax (n := 2 ^ a) (by positivity) _ hmem
      exact ⟨cs, hcs, boundary_columns hcs⟩) hz hgrind
    (rows := List.replicate 2 (List.replicate (traceColumns (hasRcBuiltin pi)) 0)) rfl
    (fun r hr => by rw [(List.mem_replicate.mp hr).2, List.length_replicate]; rfl) 0 0 le_rfl
  obtain ⟨even, nonce, -, h⟩ := key
  refine ⟨_, rfl, rfl, fun d hd => ?_, h⟩
  rw [(List.mem_replicate.mp hd).2]
  simp

/-- A proof of `2^a` steps is one of zero steps for the release build. -/
theorem zero_steps_of {env : Env FE T} {pi : PublicInputs} (hzero : pi.numSteps = 0) {a : Nat} (ha : 1 ≤ a)
    (hab : a + 2 < 64) {proof : StarkProof FE} (hn : proof.traceLength = 2 ^ a) (hq : proof.queryList.length = 3)
    (hlen : ∀ d ∈ proof.queryList, d.layersEvaluations.length < 2 ^ 64)
    (h : verifyCairoProof env proof { pi with numSteps := 2 ^ a } ProofOptions.defaultTestOptions = .ok true) :
    verifyCairoProofRelease env proof pi ProofOptions.defaultTestOptions = .ok true ∧
      verifyCairoProofDebug env proof pi ProofOptions.defaultTestOptions = .panic := by
  have hlt : (2 : Nat) ^ a < 2 ^ 62 := Nat.pow_lt_pow_right (by norm_num) (by omega)
  refine ⟨?_, ?_⟩
  · have h1 := (C74_model_between env proof { pi with numSteps := 2 ^ a } ProofOptions.defaultTestOptions (b := 2) hn rfl
      (by omega) (by show 2 ^ a < 2 ^ 64; omega) hlen).2 _ h
    have h2 := C74_zero_steps_is_full_trace env proof pi ProofOptions.defaultTestOptions ha (by omega) hn
    rw [hn, h1] at h2
    rw [← h2]
    congr 1
    cases pi
    cases hzero
    rfl
  · rw [(C74_model_between env proof pi ProofOptions.defaultTestOptions (b := 2) hn rfl (by omega) (by omega) hlen).1]
    exact C55_missing_bounds_panic pi _ proof (by rw [hq]; decide) (.inr (.inr hzero))

/-- **C74.** The builds differ: a proof of zero steps that the release build accepts and on which the debug build
panics. -/
theorem C74_zero_steps_accepted {env : Env FE T} (pi : PublicInputs) (hzero : pi.numSteps = 0)
    (hmin : pi.rangeCheckMin ≠ none) (hmax : pi.rangeCheckMax ≠ none) {a : Nat} (ha : 1 ≤ a)
    (hab : a + 2 < 64) (had : a + 2 < env.ta.adicity)
    {root : Commitment} (hmem : ∀ e ∈ pi.publicMemory,
      (challengesAfter env (air (2 ^ a) pi ProofOptions.defaultTestOptions) root).zMemory
        ≠ e.1 + (challengesAfter env (air (2 ^ a) pi ProofOptions.defaultTestOptions) root).alphaMemory * e.2)
    (hz : SamplingEnds env (air (2 ^ a) pi ProofOptions.defaultTestOptions))
    (hgrind : ∀ challenge, Grinding.generateNonce env.keccak challenge 1 ≠ none) :
    ∃ proof, proof.traceLength = 2 ^ a ∧
      verifyCairoProofRelease env proof pi ProofOptions.defaultTestOptions = .ok true ∧
      verifyCairoProofDebug env proof pi ProofOptions.defaultTestOptions = .panic := by
  obtain ⟨proof, hn, hq, hlen, h⟩ := exists_forgery (env := env) { pi with numSteps := 2 ^ a }
    (by simp) hmin hmax ha hab had hmem hz hgrind
  exact ⟨proof, hn, zero_steps_of hzero ha hab hn hq hlen h⟩

/-- The hypotheses are met. -/
example : ∃ proof, verifyCairoProofRelease Examples.envStark proof { falseStatement with numSteps := 0 }
      ProofOptions.defaultTestOptions = .ok true ∧
    verifyCairoProofDebug Examples.envStark proof { falseStatement with numSteps := 0 }
      ProofOptions.defaultTestOptions = .panic := by
  obtain ⟨proof, -, h⟩ := C74_zero_steps_accepted (env := Examples.envStark) { falseStatement with numSteps := 0 } rfl
    (by decide) (by decide) (a := 1) le_rfl (by norm_num) (by show _ < 192; norm_num)
    (root := Examples.digest 0) (fun e he => by cases he)
    (samplingEnds_of (cairo_setting le_rfl _) fun lde trace t h1 h2 => Examples.sampleZOodStark lde trace t (by rw [h1, h2]; norm_num))
    Examples.generateNonce_stark
  exact ⟨proof, h⟩

/-- In all builds a proof is accepted. -/
example : ∃ proof, verifyCairoProofRelease Examples.envStark proof falseStatement
      ProofOptions.defaultTestOptions = .ok true ∧
    verifyCairoProofDebug Examples.envStark proof falseStatement ProofOptions.defaultTestOptions = .ok true := by
  obtain ⟨proof, hn, hq, hlen, h⟩ := exists_forgery (env := Examples.envStark) falseStatement
    (by decide) (by decide) (by decide) (a := 1) le_rfl (by norm_num) (by show _ < 192; norm_num)
    (root := Examples.digest 0) (fun e he => by cases he)
    (samplingEnds_of (cairo_setting le_rfl _) fun lde trace t h1 h2 => Examples.sampleZOodStark lde trace t (by rw [h1, h2]; norm_num))
    Examples.generateNonce_stark
  have key := C74_model_between Examples.envStark proof falseStatement ProofOptions.defaultTestOptions (b := 2) hn rfl
    (by rw [hn]; norm_num) (by decide) hlen
  exact ⟨proof, key.2 _ h, key.1.trans h⟩

end
end Verif.Props
