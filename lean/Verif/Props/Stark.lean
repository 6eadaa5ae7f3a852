import Verif.Lemmas.Complete
import Verif.Lemmas.ExampleAirs
import Verif.Props.ExampleAirs
import Verif.Examples.SmallEnv

/-!
# C38, C39, C43, C44 and C49: honest proofs
-/

namespace Verif.Props
open Polynomial Verif.Spec TraceTable
variable {F T Ch : Type} [Field F] [DecidableEq F] {env : Env F T}

/-! ## C38: the constraint evaluator -/

/-- **C38**: on every point of the extended domain the evaluator returns the value there of the
composition of the constraints, for all trace polynomials, coefficients and domains. -/
theorem C38_evaluator {ta : TwoAdic F} {air : Air F Ch} {a b : Nat} (S : Setting air a b) {d : Domain F}
    (hd : Domain.new ta air = .ok d)
    (hN : (air.context.proofOptions.cosetOffset : F) ^ 2 ^ (a + b) ≠ 1) {ch : Ch}
    {cs : List (MvPolynomial (Nat × Nat) F)} (hc : PolynomialConstraints air ch cs)
    (polys : List F[X]) (hp : polys.length = air.context.traceColumns)
    (boundary : List (BoundaryConstraint F)) (hcols : ∀ c ∈ boundary, c.col < polys.length)
    (transitionCoeffs boundaryCoeffs : List (F × F)) :
    evaluateConstraints ta air boundary
        ⟨(d.ldeRootsOfUnityCoset.map fun x => polys.map fun p => p.eval x).flatten, polys.length⟩ d
        transitionCoeffs boundaryCoeffs ch
      = .ok (d.ldeRootsOfUnityCoset.map fun x =>
          compositionAt air d.tracePrimitiveRoot polys boundary
            (constraintsAt cs polys air.context.transitionOffsets d.tracePrimitiveRoot x)
            boundaryCoeffs transitionCoeffs x) := by
  obtain ⟨g, w, D⟩ := domain_new S.rows S.length S.blowup hd
  have h := evaluateConstraints_ok D S.fits S.length S.blowup S.extended rfl hN hp hcols
    (fun i => constraintsAt cs polys air.context.transitionOffsets g (w ^ i *
      (air.context.proofOptions.cosetOffset : F)))
    (fun i _ => constraintsAt_computes hc hp g _) transitionCoeffs boundaryCoeffs
  rw [D.lde, D.tracePrimitiveRoot, List.map_map, List.map_map]
  exact h

omit [DecidableEq F] in
/-- **C38**: for trace polynomials that interpolate a satisfying trace, the composition is a polynomial
of degree below twice the length of the trace, where the prover needs it to be. -/
theorem C38_polynomial_exists {air : Air F Ch} {a b : Nat} (S : Setting air a b) {ch : Ch}
    {cs : List (MvPolynomial (Nat × Nat) F)} (hc : PolynomialConstraints air ch cs) {g : F}
    (hg : IsPrimitiveRoot g (2 ^ a)) {polys : List F[X]} (hp : polys.length = air.context.traceColumns)
    (hdeg : ∀ p ∈ polys, p.degree < (2 ^ a : Nat))
    (hsat : Satisfies air ((List.range (2 ^ a)).map fun i => polys.map fun p => p.eval (g ^ i))
      polys.length ch)
    {boundary : List (BoundaryConstraint F)} (hb : air.boundaryConstraints ch = .ok boundary)
    (transitionCoeffs boundaryCoeffs : List (F × F)) :
    ∃ H : F[X], H.degree < (2 * 2 ^ a : Nat) ∧
      ∀ x, x ^ 2 ^ a ≠ 1 → H.eval x = compositionAt air g polys boundary
        (constraintsAt cs polys air.context.transitionOffsets g x) boundaryCoeffs transitionCoeffs x := by
  have hn2 : 2 ≤ air.traceLength := by
    rw [S.length]
    calc 2 = 2 ^ 1 := rfl
      _ ≤ 2 ^ a := Nat.pow_le_pow_right (by norm_num) S.rows
  obtain ⟨h1, h2⟩ := satisfies_polys hc hg.pow_eq_one hp hsat hb
  refine ⟨compositionPoly air g polys boundary cs boundaryCoeffs transitionCoeffs, ?_, fun x hx => ?_⟩
  · have := compositionPoly_degree S.fits hc hn2 (by rw [S.length]; exact hdeg) g boundary boundaryCoeffs
      transitionCoeffs S.fits.bound_le S.fits.bound_exemptions
    rwa [S.length] at this
  · exact compositionPoly_eval (by omega) (by rw [S.length]; exact hg) (fun c hcm => (h1 c hcm).2.2)
      (by rw [S.length]; exact h2) boundaryCoeffs transitionCoeffs x (by rw [S.length]; exact hx)

omit [DecidableEq F] in
/-- **C38** in part: the composition polynomial is below the degree bound the AIR declares when every
constraint is exempted from fewer rows than its degree. In general it is not
(`C38_declared_bound_exceeded`). -/
theorem C38_declared_bound_partial {air : Air F Ch} {a b : Nat} (S : Setting air a b) {ch : Ch}
    {cs : List (MvPolynomial (Nat × Nat) F)} (hc : PolynomialConstraints air ch cs) {g : F}
    (hg : IsPrimitiveRoot g (2 ^ a)) {polys : List F[X]} (hp : polys.length = air.context.traceColumns)
    (hdeg : ∀ p ∈ polys, p.degree < (2 ^ a : Nat))
    (hsat : Satisfies air ((List.range (2 ^ a)).map fun i => polys.map fun p => p.eval (g ^ i))
      polys.length ch)
    {boundary : List (BoundaryConstraint F)} (hb : air.boundaryConstraints ch = .ok boundary)
    (transitionCoeffs boundaryCoeffs : List (F × F))
    (hexempt : ∀ (k d e : Nat), air.context.transitionDegrees[k]? = some d →
      air.context.transitionExemptions[k]? = some e → e < d) :
    ∃ H : F[X], H.degree < air.compositionPolyDegreeBound ∧
      ∀ x, x ^ 2 ^ a ≠ 1 → H.eval x = compositionAt air g polys boundary
        (constraintsAt cs polys air.context.transitionOffsets g x) boundaryCoeffs transitionCoeffs x := by
  have hn2 : 2 ≤ air.traceLength := by
    rw [S.length]
    calc 2 = 2 ^ 1 := rfl
      _ ≤ 2 ^ a := Nat.pow_le_pow_right (by norm_num) S.rows
  obtain ⟨h1, h2⟩ := satisfies_polys hc hg.pow_eq_one hp hsat hb
  refine ⟨compositionPoly air g polys boundary cs boundaryCoeffs transitionCoeffs, ?_, fun x hx => ?_⟩
  · exact compositionPoly_degree S.fits hc hn2 (by rw [S.length]; exact hdeg) g boundary boundaryCoeffs
      transitionCoeffs le_rfl fun k d e h3 h4 => by have := hexempt k d e h3 h4; omega
  · exact compositionPoly_eval (by omega) (by rw [S.length]; exact hg) (fun c hcm => (h1 c hcm).2.2)
      (by rw [S.length]; exact h2) boundaryCoeffs transitionCoeffs x (by rw [S.length]; exact hx)

/-! ## C39: the out-of-domain check -/

/-- **C39**: for a trace that satisfies the AIR, whatever the challenges and the out-of-domain point, the
verifier's check of the frame and of the composition polynomial evaluations computed by the first three
rounds of the prover succeeds. -/
theorem C39_check_accepts {air : Air F Ch} {a b : Nat} (S : Setting air a b) {d : Domain F}
    (hd : Domain.new env.ta air = .ok d) {rows : List (List F)} {k : Nat} (hk : 0 < k)
    (hrows : rows.length = 2 ^ a) (hr : ∀ r ∈ rows, r.length = k) {t t1 : T} {r1 : Round1 F Ch}
    (hr1 : round1 env air (ofRows rows k) d t = .ok (r1, t1))
    {cs : List (MvPolynomial (Nat × Nat) F)} (hc : PolynomialConstraints air r1.rapChallenges cs)
    (hsat : ∀ aux bcs, air.buildAuxiliaryTrace (ofRows rows k) r1.rapChallenges = .ok aux →
      air.boundaryConstraints r1.rapChallenges = .ok bcs →
      SatisfiesExtended air rows k r1.rapChallenges aux)
    {c : Challenges F Ch} (hrap : c.rapChallenges = r1.rapChallenges) {r2 : Round2 F}
    (hr2 : round2 env air d r1 c.transitionCoeffs c.boundaryCoeffs = .ok r2)
    (hz : c.z ∉ d.traceRootsOfUnity) {proof : StarkProof F}
    (hframe : proof.traceOodFrameEvaluations
      = ⟨(round3 air d r1 r2 c.z).traceOodEvaluations.flatten, r1.tracePolys.length⟩)
    (heven : proof.compositionPolyEvenOodEvaluation
      = (round3 air d r1 r2 c.z).compositionPolyEvenOodEvaluation)
    (hodd : proof.compositionPolyOddOodEvaluation
      = (round3 air d r1 r2 c.z).compositionPolyOddOodEvaluation) :
    step2 air proof d c = .ok true := by
  obtain ⟨g, w, D⟩ := domain_new S.rows S.length S.blowup hd
  exact step2_honest D S.length S.blowup S.extended S.offset S.fits hk hrows hr hr1 hc hsat hrap hr2
    ((D.notMem_trace_iff _).mp hz) hframe heven hodd

/-! ## C43: the DEEP composition polynomial -/

/-- **C43**: for all trace polynomials, composition halves and coefficients, when the proof carries the
values of the polynomials at the out-of-domain points and the `i`-th opening their values at `x`, the
value the verifier reconstructs is that of the prover's DEEP composition polynomial at `x`. -/
theorem C43_reconstructed {air : Air F Ch} (hoff : air.context.transitionOffsets
      = List.range air.context.transitionOffsets.length) {polys : List F[X]} (hpos : 0 < polys.length)
    {r2 : Round2 F} {r3 : Round3 F} {z g x : F} {c : Challenges F Ch}
    (hframe : r3.traceOodEvaluations
      = air.context.transitionOffsets.map fun o => polys.map fun p => p.eval (z * g ^ o))
    (heven : r3.compositionPolyEvenOodEvaluation = r2.compositionPolyEven.eval (z ^ 2))
    (hodd : r3.compositionPolyOddOodEvaluation = r2.compositionPolyOdd.eval (z ^ 2))
    (hcoeffs : c.traceTermCoeffs.length = polys.length)
    (hcoeffs' : ∀ r ∈ c.traceTermCoeffs, r.length = air.context.transitionOffsets.length)
    {proof : StarkProof F}
    (hp1 : proof.traceOodFrameEvaluations = ⟨r3.traceOodEvaluations.flatten, polys.length⟩)
    (hp2 : proof.compositionPolyEvenOodEvaluation = r3.compositionPolyEvenOodEvaluation)
    (hp3 : proof.compositionPolyOddOodEvaluation = r3.compositionPolyOddOodEvaluation)
    {i : Nat} {o : DeepPolynomialOpenings F} (ho : proof.deepPolyOpenings[i]? = some o)
    (ho1 : o.ldeTraceEvaluations = polys.map fun p => p.eval x)
    (ho2 : o.ldeCompositionPolyEvenEvaluation = r2.compositionPolyEven.eval x)
    (ho3 : o.ldeCompositionPolyOddEvaluation = r2.compositionPolyOdd.eval x)
    (hx : x ≠ z ^ 2) (hx' : ∀ k < air.context.transitionOffsets.length, x ≠ z * g ^ k) :
    ∃ deep, computeDeepCompositionPoly air polys r2 r3 z g c.gammaEven c.gammaOdd
        c.traceTermCoeffs.flatten = .ok deep ∧
      reconstructDeep proof c (x - z ^ 2)⁻¹
        ((List.range air.context.transitionOffsets.length).map fun k => (x - z * g ^ k)⁻¹) i
        = .ok (deep.eval x) := by
  obtain ⟨n, hn0, hn1, hn2, hn3⟩ : ∃ n : Nat, 0 < n ∧ (∀ p ∈ polys, p.degree < n) ∧
      r2.compositionPolyEven.degree < n ∧ r2.compositionPolyOdd.degree < n := by
    refine ⟨(polys.map natDegree).sum + r2.compositionPolyEven.natDegree
      + r2.compositionPolyOdd.natDegree + 1, by omega, fun p hp => ?_, ?_, ?_⟩
    · have := List.le_sum_of_mem (List.mem_map.mpr ⟨p, hp, rfl⟩ : p.natDegree ∈ polys.map natDegree)
      exact degree_lt_of_natDegree_lt (by omega)
    · exact degree_lt_of_natDegree_lt (by omega)
    · exact degree_lt_of_natDegree_lt (by omega)
  obtain ⟨P, hP1, -, hP3⟩ := computeDeep_ok (air := air) (g := g) (z := z) (r2 := r2) (r3 := r3) hframe
    heven hodd hcoeffs' hcoeffs.symm hn0 hn1 hn2 hn3 c.gammaEven c.gammaOdd
  refine ⟨P, hP1, ?_⟩
  rw [hP3 x hx (by
    intro k hk
    rw [hoff] at hk
    exact hx' k (List.mem_range.mp hk)), hoff]
  rw [hoff] at hframe hcoeffs'
  simp only [List.length_range] at hcoeffs' ⊢
  rw [← List.length_range (n := air.context.transitionOffsets.length)] at hcoeffs'
  exact reconstructDeep_ok hpos (by rw [hp1, hframe]; rfl) (by rw [hp2, heven]) (by rw [hp3, hodd]) ho ho2 ho3
    ho1 hcoeffs (by simpa using hcoeffs')

/-! ## C49: the challenges -/

/-- **C49**: replaying the proof of an honest run, the verifier recovers the challenges the prover
used: those of the auxiliary trace, of the composition, the out-of-domain point, those of the DEEP
polynomial, of the folds, and the query indices (`ProverUses` lists what each computation of the prover
received). -/
theorem C49_same_challenges {PI : Type} {new : AirNew F Ch PI} {trace : TraceTable F} {pi : PI}
    {options : ProofOptions} {proof : StarkProof F} {air : Air F Ch}
    (hnew : new trace.nRows pi options = .ok air) {a b : Nat} (ha : 1 ≤ a)
    (hn : air.traceLength = 2 ^ a) (hb : air.context.proofOptions.blowupFactor.toNat = 2 ^ b)
    (h : prove env new trace pi options = .ok proof) :
    ∃ d c t r1 r2 deep layers ps, Domain.new env.ta air = .ok d ∧
      step1 env air proof d env.tr.init = .ok (c, t) ∧
      ProverUses env air d trace proof c r1 r2 deep layers ps :=
  prove_replay hnew ha hn hb h

/-! ## C44: honest proofs verify -/

/-- The challenges of the first round are drawn after the commitment to the trace. -/
theorem round1_commitment {air : Air F Ch} {d : Domain F} {a b : Nat} {h g w : F} (hd : Domain.new env.ta air = .ok d)
    {rows : List (List F)} {k : Nat} (hk : 0 < k) (hrows : rows.length = 2 ^ a) (hr : ∀ r ∈ rows, r.length = k)
    (D : IsDomain env.ta d a b h g w) {r1 : Round1 F Ch} {t : T}
    (h1 : round1 env air (ofRows rows k) d env.tr.init = .ok (r1, t)) :
    ∃ root, CommitmentTo env air (ofRows rows k) root ∧ r1.rapChallenges = challengesAfter env air root := by
  obtain ⟨polys, tree, hm, -⟩ := interpolateAndCommit_ok D hk hrows hr env.tr.init
  refine ⟨tree.root, ⟨d, _, hd, hm, rfl⟩, ?_⟩
  unfold round1 at h1
  rw [hm] at h1
  simp only [Outcome.bind_ok, Outcome.bind_eq_ok] at h1
  obtain ⟨aux, -, h1⟩ := h1
  split at h1
  · simp only [Outcome.bind_eq_ok, Outcome.pure_eq, Outcome.ok.injEq, Prod.mk.injEq] at h1
    obtain ⟨_, -, rfl, -⟩ := h1
    rfl
  · simp only [Outcome.bind_eq_ok, Outcome.pure_eq, Outcome.ok.injEq, Prod.mk.injEq] at h1
    obtain ⟨_, -, _, -, rfl, -⟩ := h1
    rfl

/-- What the verifier does with the proof of a satisfying trace. -/
theorem honest_verify {PI : Type} {new : AirNew F Ch PI} {pi : PI} {options : ProofOptions}
    {air : Air F Ch} {a b : Nat} (S : Setting air a b) (hnew : new (2 ^ a) pi options = .ok air)
    (hopt : air.context.proofOptions = options) {rows : List (List F)} {k : Nat} (hk : 0 < k)
    (hrows : rows.length = 2 ^ a) (hr : ∀ r ∈ rows, r.length = k)
    (hc : ∀ ch, ∃ cs, PolynomialConstraints air ch cs)
    (hsat : ∀ root, CommitmentTo env air (ofRows rows k) root → ∀ aux bcs,
      air.buildAuxiliaryTrace (ofRows rows k) (challengesAfter env air root) = .ok aux →
      air.boundaryConstraints (challengesAfter env air root) = .ok bcs →
      SatisfiesExtended air rows k (challengesAfter env air root) aux)
    {proof : StarkProof F} (hproof : prove env new (ofRows rows k) pi options = .ok proof) :
    ∃ d c t g w, Domain.new env.ta air = .ok d ∧ step1 env air proof d env.tr.init = .ok (c, t) ∧
      IsDomain env.ta d a b (air.context.proofOptions.cosetOffset : F) g w ∧
      (∀ i ∈ c.iotas, i < 2 ^ (a + b)) ∧
      ((∀ i ∈ c.iotas, d.ldeRootsOfUnityCoset[i]? ≠ some (c.z ^ 2)) →
        verify env new proof pi options = .ok true) ∧
      ((∃ i ∈ c.iotas, d.ldeRootsOfUnityCoset[i]? = some (c.z ^ 2)) →
        verify env new proof pi options = .panic) := by
  have hnr : (ofRows rows k).nRows = 2 ^ a := by rw [nRows_ofRows _ _ hk hr, hrows]
  obtain ⟨d, c, t, r1, r2, deep, layers, ps, hd, hstep, U⟩ :=
    prove_replay (by rw [hnr]; exact hnew) S.rows S.length S.blowup hproof
  obtain ⟨g, w, D⟩ := domain_new S.rows S.length S.blowup hd
  obtain ⟨tf, hfirst⟩ := U.first
  obtain ⟨root, hroot, hrap⟩ := round1_commitment hd hk hrows hr D hfirst
  obtain ⟨cs, hcs⟩ := hc c.rapChallenges
  obtain ⟨h1, h2, h3, h4, h5⟩ := steps_run D S.length S.blowup S.extended S.offset S.fits hk hrows hr hstep U
    hcs (by rw [← U.rap, hrap]; exact hsat root hroot)
  have hv := verify_of_steps hd hopt (by rw [U.traceLength, S.length]; exact hnew) hstep h1 h2.ge h3 h4
  obtain ⟨-, -, -, -, -, hi⟩ := step1_inv hstep
  rw [D.ldeRootOrder] at hi
  refine ⟨d, c, t, g, w, hd, hstep, D, hi, fun hz => by rw [hv]; exact h5 hz, ?_⟩
  rintro ⟨i, hi1, hi2⟩
  rw [hv]
  exact step4_panic D hi hi1 hi2

/-- **C44** in part: the proof of a satisfying trace is accepted when the square of the out-of-domain
point is not among the points that are queried, and verifying it panics otherwise; it is never
rejected. Missing: the second case is reachable (`C44_honest_proof_panics`). -/
theorem C44_honest_proofs_verify_partial {PI : Type} {new : AirNew F Ch PI} {pi : PI}
    {options : ProofOptions} {air : Air F Ch} {a b : Nat} (S : Setting air a b)
    (hnew : new (2 ^ a) pi options = .ok air) (hopt : air.context.proofOptions = options)
    {rows : List (List F)} {k : Nat} (hk : 0 < k)
    (hrows : rows.length = 2 ^ a) (hr : ∀ r ∈ rows, r.length = k)
    (hc : ∀ ch, ∃ cs, PolynomialConstraints air ch cs)
    (hsat : ∀ root, CommitmentTo env air (ofRows rows k) root → ∀ aux bcs,
      air.buildAuxiliaryTrace (ofRows rows k) (challengesAfter env air root) = .ok aux →
      air.boundaryConstraints (challengesAfter env air root) = .ok bcs →
      SatisfiesExtended air rows k (challengesAfter env air root) aux)
    {proof : StarkProof F} (hproof : prove env new (ofRows rows k) pi options = .ok proof) :
    ∃ d c t, Domain.new env.ta air = .ok d ∧ step1 env air proof d env.tr.init = .ok (c, t) ∧
      ((∀ i ∈ c.iotas, d.ldeRootsOfUnityCoset[i]? ≠ some (c.z ^ 2)) →
        verify env new proof pi options = .ok true) ∧
      ((∃ i ∈ c.iotas, d.ldeRootsOfUnityCoset[i]? = some (c.z ^ 2)) →
        verify env new proof pi options = .panic) := by
  obtain ⟨d, c, t, -, -, hd, hs, -, -, h1, h2⟩ := honest_verify S hnew hopt hk hrows hr hc hsat hproof
  exact ⟨d, c, t, hd, hs, h1, h2⟩

omit [DecidableEq F] in
/-- The square of an out-of-domain point is not on the coset when the offset is not a square and the
extended domain is smaller than the largest two-adic subgroup. -/
theorem square_notMem {ta : TwoAdic F} {d : Domain F} {a b : Nat} {h g w : F} (D : IsDomain ta d a b h g w)
    (hsq : ¬ IsSquare h) (hsmall : a + b < ta.adicity) (z : F) (i : Nat) : w ^ i * h ≠ z ^ 2 := by
  intro hcc
  obtain ⟨v, hv⟩ := Option.isSome_iff_exists.mp (ta.defined (a + b + 1) (by omega) (by omega))
  have hvw : v ^ 2 = w := ta.square (a + b) w v (by have := D.a_pos; omega) D.hw hv
  have hv0 : v ≠ 0 := by
    rintro rfl
    exact D.w_ne (by rw [← hvw]; ring)
  refine hsq ⟨z / v ^ i, ?_⟩
  have hvi : v ^ i ≠ 0 := pow_ne_zero _ hv0
  field_simp
  rw [← hcc, ← hvw]
  ring

/-- **C44**: when the coset offset is not a square in the field and the extended domain is not the largest
two-adic subgroup, every proof of a satisfying trace is accepted. -/
theorem C44_honest_proofs_verify {PI : Type} {new : AirNew F Ch PI} {pi : PI}
    {options : ProofOptions} {air : Air F Ch} {a b : Nat} (S : Setting air a b)
    (hsq : ¬ IsSquare (air.context.proofOptions.cosetOffset : F)) (hsmall : a + b < env.ta.adicity)
    (hnew : new (2 ^ a) pi options = .ok air) (hopt : air.context.proofOptions = options)
    {rows : List (List F)} {k : Nat} (hk : 0 < k)
    (hrows : rows.length = 2 ^ a) (hr : ∀ r ∈ rows, r.length = k)
    (hc : ∀ ch, ∃ cs, PolynomialConstraints air ch cs)
    (hsat : ∀ root, CommitmentTo env air (ofRows rows k) root → ∀ aux bcs,
      air.buildAuxiliaryTrace (ofRows rows k) (challengesAfter env air root) = .ok aux →
      air.boundaryConstraints (challengesAfter env air root) = .ok bcs →
      SatisfiesExtended air rows k (challengesAfter env air root) aux)
    {proof : StarkProof F} (hproof : prove env new (ofRows rows k) pi options = .ok proof) :
    verify env new proof pi options = .ok true := by
  obtain ⟨d, c, t, g, w, hd, hs, D, hi, h1, -⟩ := honest_verify S hnew hopt hk hrows hr hc hsat hproof
  refine h1 fun i hii => ?_
  rw [D.lde_getElem? (hi i hii)]
  intro hcc
  exact square_notMem D hsq hsmall c.z i (Option.some.inj hcc)

/-- **C44**: the prover succeeds on every satisfying trace, if the out-of-domain sampling ends and a nonce
exists. -/
theorem C44_prover_succeeds {PI : Type} {new : AirNew F Ch PI} {pi : PI} {options : ProofOptions}
    {air : Air F Ch} {a b : Nat} (S : Setting air a b) (hab : a + b < 64) (had : a + b ≤ env.ta.adicity)
    (hnew : new (2 ^ a) pi options = .ok air)
    (hN : (air.context.proofOptions.cosetOffset : F) ^ 2 ^ (a + b) ≠ 1)
    {rows : List (List F)} {k : Nat} (hk : 0 < k) (hrows : rows.length = 2 ^ a)
    (hr : ∀ r ∈ rows, r.length = k)
    (hc : ∀ ch, ∃ cs, PolynomialConstraints air ch cs)
    (hsat : ∀ root, CommitmentTo env air (ofRows rows k) root → ∃ aux bcs,
      air.buildAuxiliaryTrace (ofRows rows k) (challengesAfter env air root) = .ok aux ∧
      air.boundaryConstraints (challengesAfter env air root) = .ok bcs ∧
      SatisfiesExtended air rows k (challengesAfter env air root) aux)
    (hz : SamplingEnds env air)
    (hgrind : ∀ challenge, Grinding.generateNonce env.keccak challenge
      air.context.proofOptions.grindingFactor.toNat ≠ none) :
    ∃ proof, prove env new (ofRows rows k) pi options = .ok proof :=
  prove_exists S.rows hab had hnew S.length S.blowup S.extended S.offset hN S.fits hk hrows hr hc hsat hz
    hgrind

/-! ## Concrete runs -/

section examples
open Verif.Examples Verif.ExampleAirs

/-- Two queries, an extension by two and no grinding. -/
def options17 (offset : Nat) : ProofOptions := ⟨2, 2, offset, 0⟩

/-- Four rows of the Fibonacci sequence in two columns. -/
def rows17 : List (List (ZMod 17)) := [[1, 1], [2, 3], [5, 8], [13, 4]]

/-- The AIR of the Fibonacci sequence in two columns. -/
def air17 : Air (ZMod 17) Unit := getOk (fibonacci2 (2 ^ 2) ⟨1, 1⟩ (options17 3)) rfl

theorem air17_eq : fibonacci2 (2 ^ 2) ⟨1, 1⟩ (options17 3) = .ok air17 := rfl

theorem setting17 : Setting air17 2 1 :=
  ⟨by norm_num, le_rfl, rfl, rfl, by decide +kernel, fibonacci2_fits (by norm_num) _ _ air17_eq⟩

theorem rows17_satisfy : Satisfies air17 rows17 2 () := by
  refine (C54_fibonacci_two_columns (n := 2 ^ 2) air17_eq rfl (by norm_num) (by decide)).mpr ?_
  decide +kernel

theorem extended17 (ch : Unit) : SatisfiesExtended air17 rows17 2 ch emptyTable :=
  .inl ⟨rfl, rfl, rows17_satisfy⟩

/-- The prover succeeds on these rows and the verifier accepts the proof: the hypotheses of
`C44_prover_succeeds`, `C44_honest_proofs_verify`, and with them of `C49_same_challenges`, are met. -/
theorem honest17 : ∃ proof, prove env17 fibonacci2 (ofRows rows17 2) ⟨1, 1⟩ (options17 3) = .ok proof ∧
    verify env17 fibonacci2 proof ⟨1, 1⟩ (options17 3) = .ok true := by
  obtain ⟨proof, hp⟩ := C44_prover_succeeds (env := env17) setting17 (by norm_num) (by decide) air17_eq
    (by decide +kernel) (rows := rows17) (k := 2) (by norm_num) rfl (by decide)
    (fun ch => ⟨_, fibonacci2_polynomial _ _ _ air17_eq ch⟩) (fun _ _ => ⟨_, _, rfl, rfl, extended17 _⟩)
    (samplingEnds_of setting17 fun lde trace t h1 h2 => sampleZOod17 0 lde trace t (by rw [h1, h2]; norm_num))
    (fun c => generateNonce_zero _ c)
  refine ⟨proof, hp, C44_honest_proofs_verify setting17 ?_ (by decide) air17_eq rfl (by norm_num) rfl
    (by decide) (fun ch => ⟨_, fibonacci2_polynomial _ _ _ air17_eq ch⟩) ?_ hp⟩
  · rw [show ((air17.context.proofOptions.cosetOffset : Nat) : ZMod 17) = 3 from rfl]
    decide +kernel
  · intro _ _ aux bcs h1 _
    obtain rfl := Outcome.ok.inj h1
    exact extended17 _

/-- The AIR of squares, with the offset 9. -/
def airSquares : Air (ZMod 17) Unit := getOk (quadratic (2 ^ 1) 2 (options17 9)) rfl

theorem airSquares_eq : quadratic (2 ^ 1) 2 (options17 9) = .ok airSquares := rfl

theorem settingSquares : Setting airSquares 1 1 :=
  ⟨le_rfl, le_rfl, rfl, rfl, by decide +kernel, quadratic_fits (by norm_num) _ _ airSquares_eq⟩

theorem squares_satisfy : Satisfies airSquares [[2], [4]] 1 () := by
  refine (C54_quadratic (n := 2 ^ 1) airSquares_eq rfl (by norm_num) (by decide)).mpr ?_
  decide +kernel

/-- **C44** does not hold in general: with an offset that is a square, the square of the out-of-domain
point can be a queried point, and then the verifier panics on the proof of a satisfying trace. -/
theorem C44_honest_proof_panics :
    ∃ (env : Env (ZMod 17) UInt8) (air : Air (ZMod 17) Unit) (proof : StarkProof (ZMod 17)),
      quadratic 2 2 (options17 9) = .ok air ∧ Setting air 1 1 ∧ Satisfies air [[2], [4]] 1 () ∧
      prove env quadratic (ofRows [[2], [4]] 1) 2 (options17 9) = .ok proof ∧
      verify env quadratic proof 2 (options17 9) = .panic := by
  have hsat : ∀ ch : Unit, SatisfiesExtended airSquares [[2], [4]] 1 ch emptyTable :=
    fun ch => .inl ⟨rfl, rfl, squares_satisfy⟩
  obtain ⟨proof, hp⟩ := C44_prover_succeeds (env := env17From 255) settingSquares (by norm_num) (by decide)
    airSquares_eq (by decide +kernel) (rows := [[2], [4]]) (k := 1) (by norm_num) rfl (by decide)
    (fun ch => ⟨_, quadratic_polynomial _ _ _ airSquares_eq ch⟩) (fun _ _ => ⟨_, _, rfl, rfl, hsat _⟩)
    (samplingEnds_of settingSquares fun lde trace t h1 h2 => sampleZOod17 255 lde trace t (by rw [h1, h2]; norm_num))
    (fun c => generateNonce_zero _ c)
  refine ⟨env17From 255, airSquares, proof, airSquares_eq, settingSquares, squares_satisfy, hp, ?_⟩
  obtain ⟨d, c, t, g, w, hd, hs, D, hi, -, h2⟩ := honest_verify settingSquares airSquares_eq rfl
    (rows := [[2], [4]]) (k := 1) (by norm_num) rfl (by decide)
    (fun ch => ⟨_, quadratic_polynomial _ _ _ airSquares_eq ch⟩)
    (fun _ _ aux bcs h1 _ => by
      obtain rfl := Outcome.ok.inj h1
      exact hsat _) hp
  apply h2
  have hw : w = 13 := by
    have := D.hw
    have h13 : (env17From 255).ta.root (1 + 1) = some 13 := by decide +kernel
    rw [h13] at this
    exact (Option.some.inj this).symm
  have hg : g = 16 := by
    have := D.hg
    have h16 : (env17From 255).ta.root 1 = some 16 := by decide +kernel
    rw [h16] at this
    exact (Option.some.inj this).symm
  have hlde : d.ldeRootsOfUnityCoset = [9, 15, 8, 2] := by
    rw [D.lde, hw]
    decide +kernel
  have htr : d.traceRootsOfUnity = [1, 16] := by
    rw [D.traceRoots, hg]
    decide +kernel
  unfold step1 at hs
  simp only [Outcome.bind_eq_ok, Outcome.pure_eq, Outcome.ok.injEq, Prod.mk.injEq] at hs
  obtain ⟨root0, -, boundary, hb, ⟨z, tz⟩, hz, t7, -, ⟨io, t13⟩, hio, rfl, -⟩ := hs
  obtain rfl := Outcome.ok.inj hb
  have hz3 : z = 3 := by
    have hz' := (Props.C51_outside _ _ _ _ _ _ _).mp (ofOptionUnwrap_ok.mp hz)
    obtain ⟨-, -, k, hk1, hk2⟩ := hz'
    rw [hlde, htr] at hk2
    simp only [samples17, append17, toField17, after17, List.length_singleton] at hk1 hk2
    have hst : (buildRapChallenges (env17From 255) airSquares (env17From 255).tr.init).2 = 255 := rfl
    generalize proof.ldeTraceMerkleRoots[1]? = second at hk1 hk2
    cases second
    all_goals
      simp only [hst] at hk1 hk2
      rcases Nat.eq_zero_or_pos k with rfl | hk0
      · rw [(Prod.mk.inj hk1).1]
        decide +kernel
      · exact absurd (hk2 0 hk0) (by decide +kernel)
  refine ⟨0, ?_, ?_⟩
  · have : io = [0, 0] := by
      rw [D.ldeRootOrder] at hio
      exact (congrArg Prod.fst (Outcome.ok.inj hio)).symm
    rw [this]
    simp
  · rw [hlde]
    show _ = some (z ^ 2)
    rw [hz3]
    decide +kernel

/-- The AIR of the Fibonacci sequence in one column. -/
def airFib : Air (ZMod 17) Unit := getOk (fibonacci (2 ^ 2) ⟨1, 1⟩ (options17 3)) rfl

theorem airFib_eq : fibonacci (2 ^ 2) ⟨1, 1⟩ (options17 3) = .ok airFib := rfl

/-- The polynomial with the values 1, 1, 2, 3 at the powers of 13. -/
noncomputable def polyFib : (ZMod 17)[X] := C 6 + C 2 * X + C 4 * X ^ 2 + C 6 * X ^ 3

theorem polyFib_eval (x : ZMod 17) : polyFib.eval x = 6 + 2 * x + 4 * x ^ 2 + 6 * x ^ 3 := by
  simp only [polyFib, eval_add, eval_mul, eval_C, eval_X, eval_pow]

theorem polyFib_degree : polyFib.degree < (2 ^ 2 : Nat) := by
  unfold polyFib
  refine degree_lt_of_natDegree_lt (lt_of_le_of_lt (b := 3) ?_ (by norm_num))
  compute_degree

theorem settingFib : Setting airFib 2 1 :=
  ⟨by norm_num, le_rfl, rfl, rfl, by decide +kernel, fibonacci_fits (by norm_num) _ _ airFib_eq⟩

/-- The composition of the Fibonacci constraint alone. -/
theorem compositionFib (x : ZMod 17) :
    compositionAt airFib 13 [polyFib] [⟨0, 0, 1⟩, ⟨0, 1, 1⟩]
        (constraintsAt [MvPolynomial.X (2, 0) - MvPolynomial.X (1, 0) - MvPolynomial.X (0, 0)] [polyFib]
          [0, 1, 2] 13 x) [(0, 0), (0, 0)] [(1, 0)] x
      = ((6 + 2 * (x * 13 ^ 2) + 4 * (x * 13 ^ 2) ^ 2 + 6 * (x * 13 ^ 2) ^ 3)
          - (6 + 2 * (x * 13 ^ 1) + 4 * (x * 13 ^ 1) ^ 2 + 6 * (x * 13 ^ 1) ^ 3)
          - (6 + 2 * (x * 13 ^ 0) + 4 * (x * 13 ^ 0) ^ 2 + 6 * (x * 13 ^ 0) ^ 3))
        * ((x - 13 ^ 2) * (x - 13 ^ 3)) / (x ^ 4 - 1) * x ^ 4 := by
  have hctx : airFib.context.transitionDegrees = [1] ∧ airFib.context.transitionExemptions = [2] ∧
    airFib.traceLength = 4 ∧ airFib.compositionPolyDegreeBound = 4 := ⟨rfl, rfl, rfl, rfl⟩
  obtain ⟨h1, h2, h3, h4⟩ := hctx
  simp [compositionAt, compositionOf, boundaryAt, transitionAt, constraintsAt, frameRows, h1, h2, h3, h4,
    polyFib_eval, exemption, Finset.prod_Ico_succ_top, eval_mul]

/-- **C38** does not hold for the declared bound: for the Fibonacci AIR, whose constraint has degree 1 and
is exempted from two rows, there are a satisfying trace and coefficients for which no polynomial of
degree below the declared bound takes the values of the composition. -/
theorem C38_declared_bound_exceeded :
    ∃ (air : Air (ZMod 17) Unit) (cs : List (MvPolynomial (Nat × Nat) (ZMod 17)))
      (polys : List (ZMod 17)[X]) (boundary : List (BoundaryConstraint (ZMod 17))) (g : ZMod 17),
      fibonacci 4 ⟨1, 1⟩ (options17 3) = .ok air ∧ Setting air 2 1 ∧ PolynomialConstraints air () cs ∧
      IsPrimitiveRoot g (2 ^ 2) ∧ (∀ p ∈ polys, p.degree < (2 ^ 2 : Nat)) ∧
      Satisfies air ((List.range (2 ^ 2)).map fun i => polys.map fun p => p.eval (g ^ i)) 1 () ∧
      air.boundaryConstraints () = .ok boundary ∧
      ∃ transitionCoeffs boundaryCoeffs, ∀ H : (ZMod 17)[X],
        (∀ x, x ^ 2 ^ 2 ≠ 1 → H.eval x = compositionAt air g polys boundary
          (constraintsAt cs polys air.context.transitionOffsets g x) boundaryCoeffs transitionCoeffs x) →
        ¬ H.degree < air.compositionPolyDegreeBound := by
  refine ⟨airFib, _, [polyFib], _, 13, airFib_eq, settingFib, fibonacci_polynomial _ _ _ airFib_eq (), ?_, ?_,
    ?_, rfl, [(1, 0)], [(0, 0), (0, 0)], ?_⟩
  · exact roots17.primitive 2 13 (by norm_num) (by decide +kernel)
  · simpa using polyFib_degree
  · refine (C54_fibonacci (n := 2 ^ 2) airFib_eq rfl (by norm_num) ?_).mpr ?_
    · simp
    · simp only [List.map_cons, List.map_nil, polyFib_eval]
      decide +kernel
  · intro H hH hdeg
    have hdeg' : H.degree < (4 : Nat) := hdeg
    have hoff : airFib.context.transitionOffsets = [0, 1, 2] := rfl
    have hev : ∀ x : ZMod 17, x ^ 2 ^ 2 ≠ 1 → H.coeff 0 + H.coeff 1 * x + H.coeff 2 * x ^ 2 + H.coeff 3 * x ^ 3
        = ((6 + 2 * (x * 13 ^ 2) + 4 * (x * 13 ^ 2) ^ 2 + 6 * (x * 13 ^ 2) ^ 3)
          - (6 + 2 * (x * 13 ^ 1) + 4 * (x * 13 ^ 1) ^ 2 + 6 * (x * 13 ^ 1) ^ 3)
          - (6 + 2 * (x * 13 ^ 0) + 4 * (x * 13 ^ 0) ^ 2 + 6 * (x * 13 ^ 0) ^ 3))
        * ((x - 13 ^ 2) * (x - 13 ^ 3)) / (x ^ 4 - 1) * x ^ 4 := by
      intro x hx
      rw [← compositionFib, ← hoff, ← hH x hx,
        eval_eq_sum_range' (natDegree_lt_of_degree_lt (by norm_num) hdeg')]
      simp [Finset.sum_range_succ]
    generalize H.coeff 0 = c0 at hev
    generalize H.coeff 1 = c1 at hev
    generalize H.coeff 2 = c2 at hev
    generalize H.coeff 3 = c3 at hev
    have e2 : c0 + c1 * 2 + c2 * 2 ^ 2 + c3 * 2 ^ 3 = 11 :=
      (hev 2 (by decide +kernel)).trans (by decide +kernel)
    have e3 : c0 + c1 * 3 + c2 * 3 ^ 2 + c3 * 3 ^ 3 = 1 :=
      (hev 3 (by decide +kernel)).trans (by decide +kernel)
    have e5 : c0 + c1 * 5 + c2 * 5 ^ 2 + c3 * 5 ^ 3 = 0 :=
      (hev 5 (by decide +kernel)).trans (by decide +kernel)
    have e6 : c0 + c1 * 6 + c2 * 6 ^ 2 + c3 * 6 ^ 3 = 9 :=
      (hev 6 (by decide +kernel)).trans (by decide +kernel)
    have e7 : c0 + c1 * 7 + c2 * 7 ^ 2 + c3 * 7 ^ 3 = 1 :=
      (hev 7 (by decide +kernel)).trans (by decide +kernel)
    have h17 : (17 : ZMod 17) = 0 := by decide +kernel
    have hne : (15 : ZMod 17) ≠ 0 := by decide +kernel
    apply hne
    linear_combination -(2 * e2 + 12 * e3 + 10 * e5 + 7 * e6 + 3 * e7)
      + (2 * c0 + 9 * c1 + 45 * c2 + 243 * c3 - 5) * h17

/-- The prover's run on the example rows, for the hypotheses of `C38`, `C39` and `C43`. -/
example : ∃ (d : Domain (ZMod 17)) (r1 : Round1 (ZMod 17) Unit) (r2 : Round2 (ZMod 17)) (t : UInt8)
    (c : Challenges (ZMod 17) Unit) (proof : StarkProof (ZMod 17)),
    Domain.new env17.ta air17 = .ok d ∧
    round1 env17 air17 (ofRows rows17 2) d env17.tr.init = .ok (r1, t) ∧
    round2 env17 air17 d r1 c.transitionCoeffs c.boundaryCoeffs = .ok r2 ∧
    c.z ∉ d.traceRootsOfUnity ∧
    proof.traceOodFrameEvaluations
      = ⟨(round3 air17 d r1 r2 c.z).traceOodEvaluations.flatten, r1.tracePolys.length⟩ ∧
    c.traceTermCoeffs.length = 2 ∧ (∀ r ∈ c.traceTermCoeffs, r.length = 2) ∧
    r1.tracePolys.length = 2 ∧ (∀ p ∈ r1.tracePolys, p.degree < (2 ^ 2 : Nat)) ∧
    rows17 = (List.range (2 ^ 2)).map fun i => r1.tracePolys.map fun p => p.eval (13 ^ i) := by
  obtain ⟨proof, hp⟩ := C44_prover_succeeds (env := env17) setting17 (by norm_num) (by decide) air17_eq
    (by decide +kernel) (rows := rows17) (k := 2) (by norm_num) rfl (by decide)
    (fun ch => ⟨_, fibonacci2_polynomial _ _ _ air17_eq ch⟩) (fun _ _ => ⟨_, _, rfl, rfl, extended17 _⟩)
    (samplingEnds_of setting17 fun lde trace t h1 h2 => sampleZOod17 0 lde trace t (by rw [h1, h2]; norm_num))
    (fun c => generateNonce_zero _ c)
  obtain ⟨d, c, t, r1, r2, deep, layers, ps, hd, hs, U⟩ := C49_same_challenges (air := air17) rfl
    (by norm_num : 1 ≤ 2) rfl setting17.blowup hp
  obtain ⟨t1, hr1⟩ := U.first
  obtain ⟨g, w, D⟩ := domain_new setting17.rows setting17.length setting17.blowup hd
  obtain ⟨-, hz, hg1, hg2, -⟩ := step1_inv hs
  obtain ⟨-, -, -, -, -, aux, haux, hor⟩ := round1_ok D (rows := rows17) (k := 2) (by norm_num) rfl (by decide) hr1
  obtain rfl := Outcome.ok.inj haux
  obtain ⟨R1, hl⟩ : IsRound1 env17 2 1 _ g w rows17 r1 ∧ r1.tracePolys.length = 2 := by
    rcases hor with ⟨-, h⟩ | ⟨h, -⟩
    · exact h
    · exact absurd h (by decide)
  have hg : g = 13 := by
    have := D.hg
    have h13 : env17.ta.root 2 = some 13 := by decide +kernel
    rw [h13] at this
    exact (Option.some.inj this).symm
  exact ⟨d, r1, r2, t1, c, proof, hd, hr1, U.second, hz, U.frame, hg1, hg2, hl, R1.degree, hg ▸ R1.values⟩

end examples

end Verif.Props
