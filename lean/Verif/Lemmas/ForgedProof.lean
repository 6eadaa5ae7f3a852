import Verif.Lemmas.Accept
import Verif.Lemmas.ExampleAirs

/-!
# Proofs assembled without a trace
-/

namespace Verif
open Polynomial Spec
variable {F T Ch : Type} [Field F] [DecidableEq F] {env : Env F T}

omit [DecidableEq F] in
theorem appendFrame_exists {rows : List (List F)} {w : Nat} (hw : 0 < w) (hr : ∀ r ∈ rows, r.length = w)
    (t : T) : ∃ t', appendFrame env ⟨rows.flatten, w⟩ t = .ok t' := by
  unfold appendFrame Frame.numRows
  simp only [if_neg (by omega : ¬ w = 0), Outcome.bind_ok]
  rw [length_flatten_const _ w hr, Nat.mul_div_cancel _ hw]
  obtain ⟨s', hs, -⟩ := foldlM_invariant (l := List.range rows.length)
    (f := fun t i => do
      let row ← Frame.getRow ⟨rows.flatten, w⟩ i
      return row.foldl env.appendField t) (fun _ _ => True) (s := t) trivial (by
      intro k i s hi _
      obtain ⟨hk, rfl⟩ := List.getElem?_eq_some_iff.mp hi
      rw [List.length_range] at hk
      rw [List.getElem_range, ExampleAirs.getRow_flatten hr hk, Outcome.bind_ok]
      exact ⟨_, rfl, trivial⟩)
  exact ⟨s', hs⟩

/-- The first step succeeds on proofs of the right shape, when the boundary constraints exist for the challenges drawn
and a point is found. -/
theorem step1_exists_at {air : Air F Ch} {proof : StarkProof F} {d : Domain F} {root0 : Commitment}
    {rest : List Commitment} (hroots : proof.ldeTraceMerkleRoots = root0 :: rest) (hsmall : d.ldeRootOrder < 64)
    {bcs : List (BoundaryConstraint F)}
    (hb : air.boundaryConstraints (buildRapChallenges env air (env.tr.append env.tr.init root0.val)).1 = .ok bcs)
    (hz : env.tr.sampleZOod env.ofDigest d.ldeRootsOfUnityCoset d.traceRootsOfUnity
      (beforePoint env air (root0 :: rest) bcs.length proof.compositionPolyRoot) ≠ none)
    (hf : ∀ t, ∃ t', appendFrame env proof.traceOodFrameEvaluations t = .ok t') :
    ∃ c t, step1 env air proof d env.tr.init = .ok (c, t) ∧
      c.rapChallenges = (buildRapChallenges env air (env.tr.append env.tr.init root0.val)).1 := by
  rw [← hroots] at hz
  obtain ⟨⟨z, t6⟩, h6⟩ := Option.ne_none_iff_exists'.mp hz
  obtain ⟨t7, h7⟩ := hf (env.appendField (env.appendField t6 proof.compositionPolyEvenOodEvaluation)
    proof.compositionPolyOddOodEvaluation)
  obtain ⟨⟨io, t13⟩, h13⟩ := sampleIndices_exists (env := env) (m := iotaMax d.ldeRootOrder)
    (by rw [iotaMax_of_lt hsmall]; positivity) air.context.proofOptions.friNumberOfQueries (env.tr.append (env.tr.challenge (env.appendField
      (sampleZetas env proof.friLayersMerkleRoots (sampleRows env air.context.transitionOffsets.length
        air.context.traceColumns (env.sample (env.sample t7).2).2).2).2 proof.friLastValue)).2
        (beBytes 8 proof.nonce))
  exact ⟨_, _, step1_eq hroots rfl rfl hb rfl rfl rfl rfl h6 h7 rfl rfl rfl rfl rfl h13, rfl⟩

/-- The first step succeeds on proofs of the right shape. -/
theorem step1_exists {air : Air F Ch} {proof : StarkProof F} {d : Domain F} {root0 : Commitment}
    {rest : List Commitment} (hroots : proof.ldeTraceMerkleRoots = root0 :: rest) (hsmall : d.ldeRootOrder < 64)
    (hb : ∀ t : T, ∃ bcs, air.boundaryConstraints (buildRapChallenges env air t).1 = .ok bcs)
    (hz : ∀ t, env.tr.sampleZOod env.ofDigest d.ldeRootsOfUnityCoset d.traceRootsOfUnity t ≠ none)
    (hf : ∀ t, ∃ t', appendFrame env proof.traceOodFrameEvaluations t = .ok t') (t0 : T) :
    ∃ c t t', step1 env air proof d t0 = .ok (c, t) ∧
      c.rapChallenges = (buildRapChallenges env air t').1 := by
  obtain ⟨bcs, hbcs⟩ := hb (env.tr.append t0 root0.val)
  obtain ⟨⟨z, t6⟩, h6⟩ := Option.ne_none_iff_exists'.mp (hz (env.tr.append (env.samples
    air.context.numTransitionConstraints (env.samples air.context.numTransitionConstraints (env.samples
      bcs.length (env.samples bcs.length (transcriptRound1 env air proof.ldeTraceMerkleRoots
        t0)).2).2).2).2 proof.compositionPolyRoot.val))
  obtain ⟨t7, h7⟩ := hf (env.appendField (env.appendField t6 proof.compositionPolyEvenOodEvaluation)
    proof.compositionPolyOddOodEvaluation)
  obtain ⟨⟨io, t13⟩, h13⟩ := sampleIndices_exists (env := env) (m := iotaMax d.ldeRootOrder)
    (by rw [iotaMax_of_lt hsmall]; positivity) air.context.proofOptions.friNumberOfQueries (env.tr.append (env.tr.challenge (env.appendField
      (sampleZetas env proof.friLayersMerkleRoots (sampleRows env air.context.transitionOffsets.length
        air.context.traceColumns (env.sample (env.sample t7).2).2).2).2 proof.friLastValue)).2
        (beBytes 8 proof.nonce))
  exact ⟨_, _, _, step1_eq hroots rfl rfl hbcs rfl rfl rfl rfl h6 h7 rfl rfl rfl rfl rfl h13, rfl⟩

/-- Changing the nonce and the queries keeps the challenges that are drawn before them. -/
theorem step1_nonce {air : Air F Ch} {proof : StarkProof F} {d : Domain F} {t t' : T} {c : Challenges F Ch}
    (h : step1 env air proof d t = .ok (c, t')) :
    ∃ challenge : Commitment, ∀ nonce queries openings, ∃ iotas t'',
      step1 env air { proof with nonce := nonce, queryList := queries, deepPolyOpenings := openings } d t
        = .ok ({ c with iotas := iotas,
                        leadingZerosCount := Grinding.leadingZerosOf env.keccak challenge nonce }, t'') := by
  unfold step1 at h
  simp only [Outcome.bind_eq_ok, Outcome.pure_eq, Outcome.ok.injEq, Prod.mk.injEq] at h
  obtain ⟨root0, h0, boundary, hb, z, hz, t7, h7, io, hio, rfl, -⟩ := h
  refine ⟨(env.tr.challenge (env.appendField (sampleZetas env proof.friLayersMerkleRoots (sampleRows env
    air.context.transitionOffsets.length air.context.traceColumns
    (env.sample (env.sample t7).2).2).2).2 proof.friLastValue)).1, fun nonce queries openings => ?_⟩
  obtain ⟨⟨io', t13⟩, h13⟩ := sampleIndices_again hio (env.tr.append (env.tr.challenge (env.appendField
      (sampleZetas env proof.friLayersMerkleRoots (sampleRows env air.context.transitionOffsets.length
        air.context.traceColumns (env.sample (env.sample t7).2).2).2).2 proof.friLastValue)).2
        (beBytes 8 nonce))
  refine ⟨io', t13, ?_⟩
  unfold step1
  simp only [h0, hb, hz, h7, Outcome.bind_ok, h13, Outcome.pure_eq]

/-- The challenges of the first step that are drawn before the evaluations of the composition halves do
not depend on them. -/
theorem step1_even {air : Air F Ch} {proof : StarkProof F} {d : Domain F} {t t' : T} {c : Challenges F Ch}
    (hf : ∀ t, ∃ t', appendFrame env proof.traceOodFrameEvaluations t = .ok t')
    (h : step1 env air proof d t = .ok (c, t')) (even odd : F) :
    ∃ c' t'', step1 env air { proof with compositionPolyEvenOodEvaluation := even,
                                         compositionPolyOddOodEvaluation := odd } d t = .ok (c', t'') ∧
      c'.z = c.z ∧ c'.rapChallenges = c.rapChallenges ∧ c'.boundaryCoeffs = c.boundaryCoeffs ∧
      c'.transitionCoeffs = c.transitionCoeffs := by
  unfold step1 at h
  simp only [Outcome.bind_eq_ok, Outcome.pure_eq, Outcome.ok.injEq, Prod.mk.injEq] at h
  obtain ⟨root0, h0, boundary, hb, z, hz, t7, h7, io, hio, rfl, -⟩ := h
  obtain ⟨t7', h7'⟩ := hf (env.appendField (env.appendField z.2 even) odd)
  obtain ⟨⟨io', t13⟩, h13⟩ := sampleIndices_again hio (env.tr.append (env.tr.challenge (env.appendField
      (sampleZetas env proof.friLayersMerkleRoots (sampleRows env air.context.transitionOffsets.length
        air.context.traceColumns (env.sample (env.sample t7').2).2).2).2 proof.friLastValue)).2
        (beBytes 8 proof.nonce))
  unfold step1
  simp only [h0, hb, hz, h7', Outcome.bind_ok, h13, Outcome.pure_eq]
  exact ⟨_, _, rfl, rfl, rfl, rfl, rfl⟩

/-- A proof without FRI layers and openings, whose queries have the value zero. -/
def forgery (n : Nat) (root compositionRoot : Commitment) (frame : Frame F) (even odd last : F)
    (queries nonce : Nat) : StarkProof F where
  traceLength := n
  ldeTraceMerkleRoots := [root]
  traceOodFrameEvaluations := frame
  compositionPolyRoot := compositionRoot
  compositionPolyEvenOodEvaluation := even
  compositionPolyOddOodEvaluation := odd
  friLayersMerkleRoots := []
  friLastValue := last
  queryList := List.replicate queries ⟨[], [], [], [0]⟩
  deepPolyOpenings := []
  nonce := nonce

theorem forgery_step3 {d : Domain F} {a b : Nat} {h g w : F} (D : IsDomain env.ta d a b h g w) (hh : h ≠ 0)
    {c : Challenges F Ch} (hi : ∀ i ∈ c.iotas, i < 2 ^ d.ldeRootOrder) {n : Nat} {root root' : Commitment}
    {frame : Frame F} {even odd last : F} {queries nonce : Nat} :
    step3 env (forgery n root root' frame even odd last queries nonce) d c = .ok true := by
  refine step3_true.mpr ⟨D.two_ne, fun iota h1 => ?_, fun i q iota x h1 h2 h3 => ?_⟩
  · have := hi iota h1
    rw [D.ldeRootOrder] at this
    exact ⟨_, D.lde_getElem? this, mul_ne_zero (pow_ne_zero _ D.w_ne) hh⟩
  · have hq := List.mem_of_getElem? h1
    simp only [forgery, List.mem_replicate] at hq
    obtain ⟨-, rfl⟩ := hq
    refine ⟨by simp, fun k root path v pathSym vSym h1 => ?_⟩
    simp [forgery] at h1

theorem forgery_step4 {air : Air F Ch} {d : Domain F} {a b : Nat} {h g w : F} (D : IsDomain env.ta d a b h g w)
    {c : Challenges F Ch} (hi : ∀ i ∈ c.iotas, i < 2 ^ d.ldeRootOrder)
    (hz : ∀ i : Nat, w ^ i * h ≠ c.z ^ 2) {n : Nat} {root root' : Commitment}
    {frame : Frame F} {even odd last : F} {queries nonce : Nat} :
    step4 env air (forgery n root root' frame even odd last queries nonce) d c = .ok true := by
  unfold step4
  rw [D.rootOrder, getRoot_ok.mpr D.hg, Outcome.bind_ok]
  simp only
  rw [mapOutcome_eq_map (g := fun i => w ^ i * h - c.z ^ 2), Outcome.bind_ok, batchInverse_ok, Outcome.bind_ok]
  · simp [forgery]
  · intro x hx
    obtain ⟨i, -, rfl⟩ := List.mem_map.mp hx
    exact sub_ne_zero.mpr (hz i)
  · intro i hi'
    have := hi i hi'
    rw [D.ldeRootOrder] at this
    rw [index_ok (D.lde_getElem? this), Outcome.bind_ok, Outcome.pure_eq]

/-- For any commitments and any claimed out-of-domain values of the trace there is an accepted proof, when the boundary
constraints exist for the challenges drawn, and a point and a nonce are found. -/
theorem forgery_accepted_at {PI : Type} {new : AirNew F Ch PI} {pi : PI}
    {options : ProofOptions} {air : Air F Ch} {a b : Nat} (S : Setting air a b)
    (hz2 : ∀ w z : F, env.ta.root (a + b) = some w → ∀ i : Nat,
      w ^ i * (air.context.proofOptions.cosetOffset : F) ≠ z ^ 2)
    (hnew : new (2 ^ a) pi options = .ok air) (hopt : air.context.proofOptions = options)
    (hc : ∀ ch, ∃ cs, PolynomialConstraints air ch cs)
    (root compositionRoot : Commitment) {bcs : List (BoundaryConstraint F)}
    (hbcs : air.boundaryConstraints (buildRapChallenges env air (env.tr.append env.tr.init root.val)).1 = .ok bcs)
    (hcols : ∀ c ∈ bcs, c.col < air.context.traceColumns) {d : Domain F} (hd : Domain.new env.ta air = .ok d)
    (hz : env.tr.sampleZOod env.ofDigest d.ldeRootsOfUnityCoset d.traceRootsOfUnity
      (beforePoint env air [root] bcs.length compositionRoot) ≠ none)
    (hgrind : ∀ challenge, Grinding.generateNonce env.keccak challenge
      air.context.proofOptions.grindingFactor.toNat ≠ none)
    {rows : List (List F)}
    (hrows : rows.length = air.context.transitionOffsets.length)
    (hr : ∀ r ∈ rows, r.length = air.context.traceColumns) (odd last : F)
    {queries : Nat} (hq : options.friNumberOfQueries ≤ queries) :
    ∃ even nonce, nonce < 2 ^ 64 ∧ verify env new (forgery (2 ^ a) root compositionRoot
      ⟨rows.flatten, air.context.traceColumns⟩ even odd last queries nonce) pi options
        = .ok true := by
  obtain ⟨g, w, D⟩ := domain_new S.rows S.length S.blowup hd
  have hlen : 0 < rows.length := by rw [hrows]; exact S.fits.offsets_pos
  have hf : ∀ t : T, ∃ t', appendFrame env ⟨rows.flatten, air.context.traceColumns⟩ t = .ok t' :=
    appendFrame_exists S.fits.columns_pos hr
  obtain ⟨c, t, h1, hrap⟩ := step1_exists_at (env := env) (air := air) (d := d)
    (proof := forgery (2 ^ a) root compositionRoot ⟨rows.flatten, air.context.traceColumns⟩ 0 odd last
      queries 0) rfl (by rw [D.ldeRootOrder]; exact D.small) hbcs hz hf
  rw [← hrap] at hbcs
  obtain ⟨cs, hcs⟩ := hc c.rapChallenges
  have hev := hcs.computes rows hrows hr
  set evals := cs.map (MvPolynomial.eval fun ij => (rows.getD ij.1 []).getD ij.2 0)
  obtain ⟨even, heven⟩ : ∃ even, even = compositionOf air g (fun j => (rows.getD 0 []).getD j 0) bcs evals
    c.boundaryCoeffs c.transitionCoeffs c.z - c.z * odd := ⟨_, rfl⟩
  obtain ⟨c', t'', h2, hz', hrap', hbc', htc'⟩ := step1_even hf h1 even odd
  obtain ⟨challenge, h3⟩ := step1_nonce h2
  obtain ⟨nonce, hnonce⟩ := Option.ne_none_iff_exists'.mp (hgrind challenge)
  obtain ⟨iotas, t3, h4⟩ := h3 nonce (List.replicate queries ⟨[], [], [], [0]⟩) []
  refine ⟨even, nonce, (((Props.C52_smallest_nonce_partial _ _ _ _).mp hnonce).1).trans_le (by norm_num), ?_⟩
  replace h4 : step1 env air (forgery (2 ^ a) root compositionRoot ⟨rows.flatten, air.context.traceColumns⟩
    even odd last queries nonce) d env.tr.init = _ := h4
  obtain ⟨hi1, hi2, -, -, -, hi6⟩ := step1_inv h4
  rw [verify_of_steps hd hopt hnew h4 ?_ ?_ ?_ ?_]
  · refine forgery_step4 D hi6 fun i => hz2 w _ D.hw i
  · rw [Props.C52_check_iff]
    exact ((Props.C52_smallest_nonce_partial _ _ _ _).mp hnonce).2.1
  · simpa [forgery, hopt] using hq
  · rw [step2_eq D S.fits S.length ((D.notMem_trace_iff _).mp hi2) (boundary := bcs) (row0 := rows.getD 0 []) (evals := evals)]
    · simp only [forgery, hz', hbc', htc', heven]
      rw [sub_add_cancel, decide_eq_true rfl]
    · exact (congrArg _ hrap').trans hbcs
    · exact ExampleAirs.getRow_flatten hr hlen
    · have h0 : (rows.getD 0 []).length = air.context.traceColumns := by
        rw [List.getD_eq_getElem _ _ hlen]
        exact hr _ (List.getElem_mem _)
      intro x hx
      rw [h0]
      exact hcols x hx
    · exact (congrArg _ hrap').trans hev
  · exact forgery_step3 D S.offset hi6

/-- For any commitments and any claimed out-of-domain values of the trace there is an accepted proof. -/
theorem forgery_accepted {PI : Type} {new : AirNew F Ch PI} {pi : PI}
    {options : ProofOptions} {air : Air F Ch} {a b : Nat} (S : Setting air a b)
    (hab : a + b < 64) (had : a + b ≤ env.ta.adicity)
    (hz2 : ∀ w z : F, env.ta.root (a + b) = some w → ∀ i : Nat,
      w ^ i * (air.context.proofOptions.cosetOffset : F) ≠ z ^ 2)
    (hnew : new (2 ^ a) pi options = .ok air) (hopt : air.context.proofOptions = options)
    (hc : ∀ ch, ∃ cs, PolynomialConstraints air ch cs)
    (root compositionRoot : Commitment)
    (hb : ∃ bcs, air.boundaryConstraints (challengesAfter env air root) = .ok bcs ∧
      ∀ c ∈ bcs, c.col < air.context.traceColumns)
    (hz : SamplingEnds env air)
    (hgrind : ∀ challenge, Grinding.generateNonce env.keccak challenge
      air.context.proofOptions.grindingFactor.toNat ≠ none)
    {rows : List (List F)}
    (hrows : rows.length = air.context.transitionOffsets.length)
    (hr : ∀ r ∈ rows, r.length = air.context.traceColumns) (odd last : F)
    {queries : Nat} (hq : options.friNumberOfQueries ≤ queries) :
    ∃ even nonce, nonce < 2 ^ 64 ∧ verify env new (forgery (2 ^ a) root compositionRoot
      ⟨rows.flatten, air.context.traceColumns⟩ even odd last queries nonce) pi options
        = .ok true := by
  obtain ⟨d, hd⟩ := domain_exists S.rows S.length S.blowup hab had
  obtain ⟨bcs, hbcs, hcols⟩ := hb
  exact forgery_accepted_at S hz2 hnew hopt hc root compositionRoot hbcs hcols hd
    (hz _ _ hd) hgrind hrows hr odd last hq

end Verif
