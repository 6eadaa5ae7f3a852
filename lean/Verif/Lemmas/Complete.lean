import Verif.Lemmas.Replay
import Verif.Props.Transcript
import Verif.Props.Grinding

/-!
# Completeness of the proof system
-/

namespace Verif
open Polynomial Spec TraceTable
variable {F T Ch : Type} [Field F] [DecidableEq F]
variable {env : Env F T}

theorem sampleIndices_inv {m k : Nat} {t t' : T} {l : List Nat}
    (h : Fri.sampleIndices env m k t = .ok (l, t')) : l.length = k ∧ ∀ i ∈ l, i < m := by
  induction k generalizing t l with
  | zero =>
    simp only [Fri.sampleIndices, Outcome.ok.injEq, Prod.mk.injEq] at h
    obtain ⟨rfl, -⟩ := h
    simp
  | succ k ih =>
    unfold Fri.sampleIndices at h
    split at h
    · cases h
    rename_i hm
    simp only [Outcome.bind_eq_ok, Outcome.pure_eq, Outcome.ok.injEq, Prod.mk.injEq] at h
    obtain ⟨⟨l', t''⟩, h', rfl, rfl⟩ := h
    obtain ⟨h1, h2⟩ := ih h'
    refine ⟨by simp [h1], ?_⟩
    rintro i hi
    rcases List.mem_cons.mp hi with rfl | hi
    · exact Nat.mod_lt _ (Nat.pos_of_ne_zero hm)
    · exact h2 i hi

/-- What a successful first step says about the challenges. -/
theorem step1_inv {air : Air F Ch} {proof : StarkProof F} {d : Domain F} {t t' : T} {c : Challenges F Ch}
    (h : step1 env air proof d t = .ok (c, t')) :
    c.z ∉ d.ldeRootsOfUnityCoset ∧ c.z ∉ d.traceRootsOfUnity ∧
    c.traceTermCoeffs.length = air.context.traceColumns ∧
    (∀ r ∈ c.traceTermCoeffs, r.length = air.context.transitionOffsets.length) ∧
    c.iotas.length = air.context.proofOptions.friNumberOfQueries ∧
    ∀ i ∈ c.iotas, i < 2 ^ d.ldeRootOrder := by
  unfold step1 at h
  simp only [Outcome.bind_eq_ok, Outcome.pure_eq, Outcome.ok.injEq, Prod.mk.injEq] at h
  obtain ⟨root0, -, boundary, -, ⟨z, tz⟩, hz, t7, -, ⟨io, t13⟩, hio, rfl, -⟩ := h
  have hz' := (Props.C51_outside _ _ _ _ _ _ _).mp (ofOptionUnwrap_ok.mp hz)
  obtain ⟨-, -, hs3, hs4⟩ := sampleRows_samples (env := env) air.context.transitionOffsets.length
    air.context.traceColumns (env.sample (env.sample t7).2).2
  obtain ⟨hi1, hi2⟩ := sampleIndices_inv hio
  exact ⟨hz'.1, hz'.2.1, hs3, hs4, hi1, fun i hi => (hi2 i hi).trans_le (iotaMax_le _)⟩

/-- The third step accepts the answers of honestly folded layers. -/
theorem step3_ok {d : Domain F} {a b : Nat} {h g w : F} (D : IsDomain env.ta d a b h g w) (hb : 1 ≤ b)
    (hh : h ≠ 0) {deep q : F[X]} {layers : List (Fri.FriLayer F)} {ps : Nat → F[X]} {proof : StarkProof F}
    {c : Challenges F Ch} (hdeg : deep.degree < (2 ^ a : Nat)) (hlen : layers.length = a)
    (hf : Fri.Folds env deep h (a + b) layers c.zetas q ps)
    (hroots : proof.friLayersMerkleRoots = layers.map (·.merkleTree.root))
    (hlast : ∀ x, q.eval x = proof.friLastValue)
    (hq : mapOutcome (Fri.answerQuery env layers) c.iotas = .ok proof.queryList)
    (hi : ∀ i ∈ c.iotas, i < 2 ^ (a + b)) :
    step3 env proof d c = .ok true := by
  unfold step3
  have h2 : (2 : F) ≠ 0 := two_ne_zero_of_root (by have := D.a_pos; omega) D.hw
  have hw0 : w ≠ 0 := D.w_ne
  simp only [invOrPanic, if_neg h2, Outcome.bind_ok]
  rw [mapOutcome_eq_map (g := fun i => w ^ i * h), Outcome.bind_ok, batchInverse_ok, Outcome.bind_ok]
  · obtain ⟨s', hs, rfl⟩ := foldlM_invariant
      (f := fun result x => do
        let ok ← verifyQuery env proof c.zetas x.1.2 x.1.1 d x.2 2⁻¹
        pure (result && ok))
      (l := (proof.queryList.zip c.iotas).zip ((c.iotas.map fun i => w ^ i * h).map (·⁻¹)))
      (fun _ s => s = true) (s := true) rfl (by
        rintro j ⟨⟨q', iota⟩, inv⟩ s hj rfl
        rw [List.getElem?_zip_eq_some, List.getElem?_zip_eq_some] at hj
        obtain ⟨⟨hj1, hj2⟩, hj3⟩ := hj
        simp only at hj1 hj2 hj3
        simp only [List.getElem?_map, hj2, Option.map_some, Option.some.injEq] at hj3
        obtain ⟨q'', hq1, hq2⟩ := mapOutcome_getElem? hq hj2
        rw [hj1] at hq1
        obtain rfl := Option.some.inj hq1
        have := (Fri.verifyQuery_ok D.a_pos hb D.small hh D.hw hdeg hlen hf iota hq2 D.ldeRootOrder hroots
          (hlast _)).2
        simp only
        rw [← hj3, this]
        exact ⟨true, rfl, rfl⟩)
    exact hs
  · intro x hx
    obtain ⟨i, -, rfl⟩ := List.mem_map.mp hx
    exact mul_ne_zero (pow_ne_zero _ hw0) hh
  · intro i hi'
    exact index_ok (D.lde_getElem? (hi i hi'))

theorem headD_of_degree {q : F[X]} (h : q.degree < (1 : Nat)) (x : F) :
    q.eval x = (coefficients q).headD 0 := by
  have hc0 : q = C (q.coeff 0) := by
    refine eq_C_of_degree_le_zero ?_
    rw [degree_le_iff_coeff_zero]
    intro j hj
    exact (degree_lt_iff_coeff_zero _ 1).mp h j (by
      have : (0 : WithBot Nat) < (j : Nat) := hj
      exact_mod_cast this)
  have hhead : ∀ l : List F, l.headD 0 = l.getD 0 0 := by intro l; cases l <;> rfl
  rw [hhead, coefficients_getD]
  conv_lhs => rw [hc0]
  simp

end Verif

namespace Verif
open Polynomial Spec TraceTable
variable {F T Ch : Type} [Field F] [DecidableEq F]
variable {env : Env F T} {d : Domain F} {a b : Nat} {g w : F}

/-- What the first two rounds leave for a satisfying trace. -/
theorem honest_rounds {air : Air F Ch}
    (D : IsDomain env.ta d a b (air.context.proofOptions.cosetOffset : F) g w)
    (hn : air.traceLength = 2 ^ a) (hblow : air.context.proofOptions.blowupFactor.toNat = 2 ^ b) (hb : 1 ≤ b)
    (hh : (air.context.proofOptions.cosetOffset : F) ≠ 0) (hfit : Fits air)
    {rows : List (List F)} {k : Nat} (hk : 0 < k) (hrows : rows.length = 2 ^ a)
    (hr : ∀ r ∈ rows, r.length = k) {t t1 : T} {r1 : Round1 F Ch} {r2 : Round2 F}
    (hr1 : round1 env air (ofRows rows k) d t = .ok (r1, t1))
    {cs : List (MvPolynomial (Nat × Nat) F)} (hc : PolynomialConstraints air r1.rapChallenges cs)
    (hsat : ∀ aux bcs, air.buildAuxiliaryTrace (ofRows rows k) r1.rapChallenges = .ok aux →
      air.boundaryConstraints r1.rapChallenges = .ok bcs →
      SatisfiesExtended air rows k r1.rapChallenges aux)
    {tc bc : List (F × F)} (h2 : round2 env air d r1 tc bc = .ok r2) :
    ∃ full, ∃ H : F[X], ∃ boundary, IsRound1 env a b (air.context.proofOptions.cosetOffset : F) g w full r1 ∧
      r1.tracePolys.length = air.context.traceColumns ∧
      Satisfies air full air.context.traceColumns r1.rapChallenges ∧
      air.boundaryConstraints r1.rapChallenges = .ok boundary ∧
      (∀ c ∈ boundary, c.col < r1.tracePolys.length) ∧
      H.degree < (2 * 2 ^ a : Nat) ∧
      (∀ x, x ^ 2 ^ a ≠ 1 → H.eval x = compositionAt air g r1.tracePolys boundary
        (constraintsAt cs r1.tracePolys air.context.transitionOffsets g x) bc tc x) ∧
      IsRound2 env a b (air.context.proofOptions.cosetOffset : F) w H r2 := by
  set h : F := (air.context.proofOptions.cosetOffset : F) with hhdef
  obtain ⟨root0, rest, -, -, -, aux, haux, hor⟩ := round1_ok D hk hrows hr hr1
  obtain ⟨boundary, hbc, evs, hevs, -⟩ : ∃ boundary, air.boundaryConstraints r1.rapChallenges = .ok boundary ∧
      ∃ evs, evaluateConstraints env.ta air boundary r1.ldeTrace d tc bc
        r1.rapChallenges = .ok evs ∧ True := by
    have h2' := h2
    unfold round2 at h2'
    simp only [Outcome.bind_eq_ok] at h2'
    obtain ⟨bd, hbd, ev, hev, -⟩ := h2'
    exact ⟨bd, hbd, ev, hev, trivial⟩
  have hN := evaluateConstraints_disjoint D hn hblow hb rfl hevs
  obtain ⟨full, R1, hplen, hfull⟩ : ∃ full, IsRound1 env a b h g w full r1 ∧
      r1.tracePolys.length = air.context.traceColumns ∧
      Satisfies air full air.context.traceColumns r1.rapChallenges := by
    rcases hsat aux boundary haux hbc with ⟨h0, hkk, hs⟩ | ⟨auxRows, h0, htab, hl1, hl2, hkk, hs⟩
    · rcases hor with ⟨-, R1, hp⟩ | ⟨hpos, -⟩
      · exact ⟨rows, R1, by rw [hp, hkk], hs⟩
      · omega
    · rcases hor with ⟨h00, -, -⟩ | ⟨-, hall⟩
      · omega
      · obtain ⟨R1, hp⟩ := hall auxRows (by
          cases aux
          simp only at htab
          subst htab
          rfl) (by rw [hl1, hrows]) hl2
        exact ⟨_, R1, by rw [hp, hkk], hs⟩
  obtain ⟨H, r2', -, hHdeg, hHeval, hr2', R2⟩ := round2_satisfies D hh hfit hn hblow hb rfl hN R1 hplen
    hc hfull hbc tc bc
  rw [h2] at hr2'
  obtain rfl := Outcome.ok.inj hr2'
  refine ⟨full, H, boundary, R1, hplen, hfull, hbc, ?_, hHdeg, hHeval, R2⟩
  obtain ⟨bs, hbs1, hbs2⟩ := hfull.boundary
  rw [hbc] at hbs1
  obtain rfl := Outcome.ok.inj hbs1
  intro bc hbcm
  obtain ⟨row, hrow1, hrow2⟩ := hbs2 bc hbcm
  have h1 := (List.getElem?_eq_some_iff.mp hrow2).1
  have h3 : row.length = r1.tracePolys.length := by
    have := List.mem_of_getElem? hrow1
    rw [R1.values] at this
    obtain ⟨i, -, rfl⟩ := List.mem_map.mp this
    simp
  omega

/-- The out-of-domain check on the results of the first three rounds for a satisfying trace. -/
theorem step2_honest {air : Air F Ch}
    (D : IsDomain env.ta d a b (air.context.proofOptions.cosetOffset : F) g w)
    (hn : air.traceLength = 2 ^ a) (hblow : air.context.proofOptions.blowupFactor.toNat = 2 ^ b) (hb : 1 ≤ b)
    (hh : (air.context.proofOptions.cosetOffset : F) ≠ 0) (hfit : Fits air)
    {rows : List (List F)} {k : Nat} (hk : 0 < k) (hrows : rows.length = 2 ^ a)
    (hr : ∀ r ∈ rows, r.length = k) {t t1 : T} {r1 : Round1 F Ch} {r2 : Round2 F}
    (hr1 : round1 env air (ofRows rows k) d t = .ok (r1, t1))
    {cs : List (MvPolynomial (Nat × Nat) F)} (hc : PolynomialConstraints air r1.rapChallenges cs)
    (hsat : ∀ aux bcs, air.buildAuxiliaryTrace (ofRows rows k) r1.rapChallenges = .ok aux →
      air.boundaryConstraints r1.rapChallenges = .ok bcs →
      SatisfiesExtended air rows k r1.rapChallenges aux)
    {proof : StarkProof F} {c : Challenges F Ch} (hrap : c.rapChallenges = r1.rapChallenges)
    (h2 : round2 env air d r1 c.transitionCoeffs c.boundaryCoeffs = .ok r2) (hz : c.z ^ 2 ^ a ≠ 1)
    (hframe : proof.traceOodFrameEvaluations
      = ⟨(round3 air d r1 r2 c.z).traceOodEvaluations.flatten, r1.tracePolys.length⟩)
    (heven : proof.compositionPolyEvenOodEvaluation
      = (round3 air d r1 r2 c.z).compositionPolyEvenOodEvaluation)
    (hodd : proof.compositionPolyOddOodEvaluation
      = (round3 air d r1 r2 c.z).compositionPolyOddOodEvaluation) :
    step2 air proof d c = .ok true := by
  obtain ⟨full, H, boundary, R1, hplen, hfull, hbc, hcolb, hHdeg, hHeval, R2⟩ :=
    honest_rounds D hn hblow hb hh hfit hk hrows hr hr1 hc hsat h2
  have hf : (round3 air d r1 r2 c.z).traceOodEvaluations
      = frameRows r1.tracePolys air.context.transitionOffsets g c.z := by
    simp only [round3, Frame.getTraceEvaluations, frameRows, List.map_map, D.tracePrimitiveRoot]
    rfl
  rw [hf] at hframe
  have ho0 : air.context.transitionOffsets[0]? = some 0 := by
    rw [hfit.offsets, List.getElem?_range hfit.offsets_pos]
  have hrow0 : proof.traceOodFrameEvaluations.getRow 0
      = (.ok (r1.tracePolys.map fun p => p.eval (c.z * g ^ 0)) : Outcome Empty _) := by
    rw [hframe]
    exact frame_getRow r1.tracePolys _ g c.z 0 0 ho0
  have hev : air.computeTransition proof.traceOodFrameEvaluations c.rapChallenges
      = .ok (constraintsAt cs r1.tracePolys air.context.transitionOffsets g c.z) := by
    rw [hframe, hrap]
    exact constraintsAt_computes hc hplen g c.z
  rw [step2_eq D hfit hn hz (by rw [hrap]; exact hbc) hrow0 (by simpa using hcolb) hev]
  refine congrArg Outcome.ok ?_
  have hpe : proof.compositionPolyEvenOodEvaluation = r2.compositionPolyEven.eval (c.z ^ 2) := heven
  have hpo : proof.compositionPolyOddOodEvaluation = r2.compositionPolyOdd.eval (c.z ^ 2) := hodd
  rw [decide_eq_true_iff, hpe, hpo, R2.even, R2.odd, ← evenOdd_eval, hHeval c.z hz]
  unfold compositionAt
  congr 1
  funext j
  rw [pow_zero, mul_one]
  by_cases hj : j < r1.tracePolys.length
  · simp [List.getD, hj]
  · simp [List.getD, List.getElem?_eq_none (by omega : r1.tracePolys.length ≤ j)]

end Verif

namespace Verif
open Polynomial Spec TraceTable
variable {F T Ch : Type} [Field F] [DecidableEq F]
variable {env : Env F T}

/-- The steps of the verifier on the proof of a run of the prover on a satisfying trace. -/
theorem steps_run 
    {air : Air F Ch} {d : Domain F} {a b : Nat} {g w : F}
    (D : IsDomain env.ta d a b (air.context.proofOptions.cosetOffset : F) g w)
    (hn : air.traceLength = 2 ^ a) (hblow : air.context.proofOptions.blowupFactor.toNat = 2 ^ b) (hb : 1 ≤ b)
    (hh : (air.context.proofOptions.cosetOffset : F) ≠ 0) (hfit : Fits air)
    {rows : List (List F)} {k : Nat} (hk : 0 < k) (hrows : rows.length = 2 ^ a)
    (hr : ∀ r ∈ rows, r.length = k)
    {proof : StarkProof F} {c : Challenges F Ch} {t : T} {r1 : Round1 F Ch} {r2 : Round2 F} {deep : F[X]}
    {layers : List (Fri.FriLayer F)} {ps : Nat → F[X]}
    (hstep : step1 env air proof d env.tr.init = .ok (c, t))
    (U : ProverUses env air d (ofRows rows k) proof c r1 r2 deep layers ps)
    {cs : List (MvPolynomial (Nat × Nat) F)} (hc : PolynomialConstraints air c.rapChallenges cs)
    (hsat : ∀ aux bcs, air.buildAuxiliaryTrace (ofRows rows k) c.rapChallenges = .ok aux →
      air.boundaryConstraints c.rapChallenges = .ok bcs →
      SatisfiesExtended air rows k c.rapChallenges aux) :
    air.context.proofOptions.grindingFactor.toNat ≤ c.leadingZerosCount ∧
    proof.queryList.length = air.context.proofOptions.friNumberOfQueries ∧
    step2 air proof d c = .ok true ∧ step3 env proof d c = .ok true ∧
    ((∀ i ∈ c.iotas, d.ldeRootsOfUnityCoset[i]? ≠ some (c.z ^ 2)) → step4 env air proof d c = .ok true) := by
  set h : F := (air.context.proofOptions.cosetOffset : F) with hhdef
  obtain ⟨hz1, hztr, hg1, hg2, hi1, hi2⟩ := step1_inv hstep
  rw [D.ldeRootOrder] at hi2
  obtain ⟨t1, hr1⟩ := U.first
  have h2 := U.second
  have hrap := U.rap
  obtain ⟨full, H, boundary, R1, hplen, hfull, hbc, hcolb, hHdeg, hHeval, R2⟩ :=
    honest_rounds D hn hblow hb hh hfit hk hrows hr hr1 (by rw [hrap]; exact hc) (by rw [hrap]; exact hsat) h2
  have hoff := hfit.offsets
  have hz : c.z ^ 2 ^ a ≠ 1 := (D.notMem_trace_iff _).mp hztr
  have hpos : 0 < r1.tracePolys.length := by rw [hplen]; exact hfit.columns_pos
  have hframe : (round3 air d r1 r2 c.z).traceOodEvaluations
      = frameRows r1.tracePolys air.context.transitionOffsets g c.z := by
    simp only [round3, Frame.getTraceEvaluations, frameRows, List.map_map, D.tracePrimitiveRoot]
    rfl
  have hpf := U.frame
  rw [hframe] at hpf
  have hpe : proof.compositionPolyEvenOodEvaluation = r2.compositionPolyEven.eval (c.z ^ 2) := U.evenOod
  have hpo : proof.compositionPolyOddOodEvaluation = r2.compositionPolyOdd.eval (c.z ^ 2) := U.oddOod
  have hs2 : step2 air proof d c = .ok true :=
    step2_honest D hn hblow hb hh hfit hk hrows hr hr1 (by rw [hrap]; exact hc) (by rw [hrap]; exact hsat)
      hrap.symm h2 hz U.frame U.evenOod U.oddOod
  -- the DEEP polynomial
  have hn0 : 0 < 2 ^ a := by positivity
  obtain ⟨P, hP1, hP2, hP3⟩ := computeDeep_ok (air := air) (g := g) (z := c.z) (r2 := r2)
    (r3 := round3 air d r1 r2 c.z) hframe rfl rfl hg2 (by rw [hplen, hg1]) hn0 R1.degree
    (by rw [R2.even]; exact even_degree _ _ hHdeg) (by rw [R2.odd]; exact odd_degree _ _ hHdeg)
    c.gammaEven c.gammaOdd
  have hdp := U.deep_poly
  rw [D.tracePrimitiveRoot, hP1] at hdp
  obtain rfl := Outcome.ok.inj hdp
  have hlen : layers.length = a := by rw [U.fri_count, D.rootOrder]
  have hf : Fri.Folds env P h (a + b) layers c.zetas (ps layers.length) ps := {
    start := U.fri_start
    stop := rfl
    lengths := U.fri_zetas
    layer := fun k l hl => by
      have := U.fri_layers k l hl
      rwa [D.lde_length, Nat.pow_div (by
        have := (List.getElem?_eq_some_iff.mp hl).1
        omega) (by norm_num)] at this
    next := U.fri_fold }
  have hlast : ∀ x, (ps layers.length).eval x = proof.friLastValue := by
    intro x
    have := hf.degree hP2 a le_rfl (by omega)
    rw [← hlen, hlen, Nat.sub_self, pow_zero] at this
    rw [U.fri_last, ← headD_of_degree (by rw [hlen]; exact this) x]
  have hs3 := step3_ok D hb hh hP2 hlen hf U.friRoots hlast U.queries hi2
  have hs4 : (∀ i ∈ c.iotas, d.ldeRootsOfUnityCoset[i]? ≠ some (c.z ^ 2)) →
      step4 env air proof d c = .ok true := by
    intro hz2
    have hz2' : ∀ i ∈ c.iotas, w ^ i * h ≠ c.z ^ 2 := by
      intro i hi hcc
      refine hz2 i hi ?_
      rw [D.lde_getElem? (hi2 i hi), hcc]
    rw [hoff] at hpf
    refine step4_ok D hfit.aux_le hpos hplen rfl hz1 hpf hpe hpo (by rw [hg1, hplen]) hg2 hi2 hz2' ?_ ?_
    · intro i iota o hi ho
      have hilt := hi2 iota (List.mem_of_getElem? hi)
      obtain ⟨o', ho1, ho2⟩ := mapOutcome_getElem? U.openings hi
      rw [ho] at ho1
      obtain rfl := Option.some.inj ho1
      obtain ⟨o', hx1, hx2, hx3, hx4, hx5⟩ := openDeepAt_ok D R1 R2 hilt
      rw [ho2] at hx1
      obtain rfl := Outcome.ok.inj hx1
      exact ⟨hx2, hx3, hx4, by rw [U.compositionRoot]; exact hx5⟩
    · intro i iota hi
      have hmem := List.mem_of_getElem? hi
      have hilt := hi2 iota hmem
      obtain ⟨q, hq1, hq2⟩ := mapOutcome_getElem? U.queries hi
      refine ⟨q, hq1, ?_⟩
      rw [(Fri.verifyQuery_ok D.a_pos hb D.small hh D.hw hP2 hlen hf iota hq2 D.ldeRootOrder U.friRoots
        (hlast _)).1, hP3 _ (hz2' iota hmem), ← hoff]
      intro o _ hcc
      exact D.mul_g_notMem_lde hz1 iota o (sub_eq_zero.mpr hcc)
  -- the grinding and the whole
  obtain ⟨chal, hnon, hzeros⟩ := U.nonce
  have hgr : air.context.proofOptions.grindingFactor.toNat ≤ c.leadingZerosCount := by
    rw [hzeros]
    unfold Grinding.generateNonce at hnon
    have := List.find?_some hnon
    simpa using this
  have hql : proof.queryList.length = air.context.proofOptions.friNumberOfQueries := by
    rw [← hi1]
    exact (mapOutcome_mem U.queries).1
  exact ⟨hgr, hql, hs2, hs3, hs4⟩

/-- The proof of a run of the prover on a satisfying trace is accepted. -/
theorem verify_of_steps {PI : Type} {new : AirNew F Ch PI} {pi : PI} {options : ProofOptions}
    {air : Air F Ch} {d : Domain F} (hd : Domain.new env.ta air = .ok d)
    (hopt : air.context.proofOptions = options) {proof : StarkProof F} {c : Challenges F Ch} {t : T}
    (hnew : new proof.traceLength pi options = .ok air)
    (hstep : step1 env air proof d env.tr.init = .ok (c, t))
    (hgr : air.context.proofOptions.grindingFactor.toNat ≤ c.leadingZerosCount)
    (hql : air.context.proofOptions.friNumberOfQueries ≤ proof.queryList.length)
    (hs2 : step2 air proof d c = .ok true) (hs3 : step3 env proof d c = .ok true) :
    verify env new proof pi options = step4 env air proof d c := by
  unfold verify
  rw [if_neg (by rw [hopt] at hql; omega)]
  simp only [hnew, Outcome.bind_ok, hd, hstep, if_neg (not_lt.mpr hgr), hs2, hs3]
  simp only [Bool.not_true, Bool.false_eq_true, if_false]
  cases h : step4 env air proof d c with
  | ok b => cases b <;> rfl
  | err e => cases e
  | panic => rfl

/-- The fourth step panics when the square of the out-of-domain point is a queried point. -/
theorem step4_panic {air : Air F Ch} {d : Domain F} {a b : Nat} {h g w : F} (D : IsDomain env.ta d a b h g w)
    {proof : StarkProof F} {c : Challenges F Ch} (hi2 : ∀ i ∈ c.iotas, i < 2 ^ (a + b)) {i : Nat}
    (hi : i ∈ c.iotas) (hz : d.ldeRootsOfUnityCoset[i]? = some (c.z ^ 2)) :
    step4 env air proof d c = .panic := by
  unfold step4
  rw [show env.ta.getRoot d.rootOrder = .ok g from by
    rw [D.rootOrder]; exact ofOptionUnwrap_ok.mpr D.hg]
  simp only [Outcome.bind_ok]
  rw [mapOutcome_eq_map (g := fun i => w ^ i * h - c.z ^ 2), Outcome.bind_ok]
  · have : batchInverse (c.iotas.map fun i => w ^ i * h - c.z ^ 2) = .panic := by
      unfold batchInverse
      rw [if_pos]
      refine List.mem_map.mpr ⟨i, hi, ?_⟩
      rw [D.lde_getElem? (hi2 i hi)] at hz
      rw [Option.some.inj hz, sub_self]
    rw [this]
    rfl
  · intro j hj
    rw [show (index d.ldeRootsOfUnityCoset j : Outcome Empty F) = .ok (w ^ j * h) from
      index_ok (D.lde_getElem? (hi2 j hj))]
    rfl

end Verif

namespace Verif
open Polynomial Spec TraceTable
variable {F T Ch : Type} [Field F] [DecidableEq F]
variable {env : Env F T}

theorem mapOutcome_exists {ε α β : Type} {f : α → Outcome ε β} {l : List α}
    (h : ∀ x ∈ l, ∃ y, f x = .ok y) : ∃ ys, mapOutcome f l = .ok ys := by
  induction l with
  | nil => exact ⟨[], rfl⟩
  | cons x t ih =>
    obtain ⟨y, hy⟩ := h x (by simp)
    obtain ⟨ys, hys⟩ := ih fun z hz => h z (by simp [hz])
    exact ⟨y :: ys, by rw [mapOutcome, hy, hys]; rfl⟩

theorem exists_bind {ε α β : Type} {x : Outcome ε α} {f : α → Outcome ε β} {v : α} (hx : x = .ok v)
    (h : ∃ r, f v = .ok r) : ∃ r, (x >>= f) = .ok r := by
  rw [hx]
  exact h

omit [DecidableEq F] in
theorem sampleIndices_exists {m : Nat} (hm : m ≠ 0) (k : Nat) (t : T) :
    ∃ r, Fri.sampleIndices env m k t = .ok r := by
  induction k generalizing t with
  | zero => exact ⟨_, rfl⟩
  | succ k ih =>
    obtain ⟨r, hr⟩ := ih (env.tr.toUsize t).2
    refine ⟨((env.tr.toUsize t).1 % m :: r.1, r.2), ?_⟩
    rw [Fri.sampleIndices, if_neg hm]
    simp only [hr, Outcome.bind_ok, Outcome.pure_eq]

/-- Sampling that succeeds once always succeeds. -/
theorem sampleIndices_again {m k : Nat} {t : T} {x : List Nat × T} (h : Fri.sampleIndices env m k t = .ok x) (t' : T) :
    ∃ y, Fri.sampleIndices env m k t' = .ok y := by
  rcases Nat.eq_zero_or_pos k with rfl | hk
  · exact ⟨_, rfl⟩
  · refine sampleIndices_exists (fun hm => ?_) k t'
    obtain ⟨k, rfl⟩ := Nat.exists_eq_succ_of_ne_zero hk.ne'
    simp [Fri.sampleIndices, hm] at h

/-- The first round succeeds when the auxiliary trace is built, and is well formed. -/
theorem round1_exists_at {d : Domain F} {a b : Nat} {h g w : F} (D : IsDomain env.ta d a b h g w)
    {air : Air F Ch} {rows : List (List F)} {k : Nat}
    (hk : 0 < k) (hrows : rows.length = 2 ^ a) (hr : ∀ r ∈ rows, r.length = k) (t : T) :
    ∃ root0 : Commitment, (∃ r, interpolateAndCommit env (ofRows rows k) d t = .ok r ∧ r.1.2.2.2 = root0) ∧ ∀ aux,
      air.buildAuxiliaryTrace (ofRows rows k) (buildRapChallenges env air (env.tr.append t root0.val)).1 = .ok aux →
      (aux.nCols = 0 ∨ ∃ auxRows : List (List F), 0 < aux.nCols ∧ aux.table = auxRows.flatten ∧
        auxRows.length = rows.length ∧ ∀ r ∈ auxRows, r.length = aux.nCols) →
      ∃ r1 t' rest, round1 env air (ofRows rows k) d t = .ok (r1, t') ∧ r1.ldeTraceMerkleRoots = root0 :: rest ∧
        r1.rapChallenges = (buildRapChallenges env air (env.tr.append t root0.val)).1 := by
  obtain ⟨polys, tree, hm1, hm2, hm3, hm4, hm5⟩ := interpolateAndCommit_ok D hk hrows hr t
  have hne : polys ≠ [] := by
    intro h0
    rw [h0] at hm2
    simp at hm2
    omega
  refine ⟨tree.root, ⟨_, hm1, rfl⟩, fun aux ha1 ha2 => ?_⟩
  unfold round1
  simp only [hm1, Outcome.bind_ok, ha1]
  rcases ha2 with h0 | ⟨auxRows, h0, htab, hl, hw⟩
  · rw [if_pos h0, newFromCols_values hne]
    exact ⟨_, _, _, rfl, rfl, rfl⟩
  · rw [if_neg (by omega)]
    obtain ⟨polysA, treeA, hA1, hA2, -⟩ := interpolateAndCommit_ok D h0 (by rw [hl, hrows]) hw
      (buildRapChallenges env air (env.tr.append t tree.root.val)).2
    have haux' : aux = ofRows auxRows aux.nCols := by
      cases aux
      simp only at htab
      subst htab
      rfl
    rw [haux', hA1]
    simp only [Outcome.bind_ok]
    rw [← List.map_append, newFromCols_values (by simp [hne])]
    exact ⟨_, _, _, rfl, rfl, rfl⟩

/-- The state of the transcript when the out-of-domain point is drawn: after the roots of the first round, the
coefficients of `nb` boundary constraints and of the transition constraints, and the root of the second round. -/
def beforePoint (env : Env F T) (air : Air F Ch) (roots : List Commitment) (nb : Nat) (rootH : Commitment) : T :=
  env.tr.append (env.samples air.context.numTransitionConstraints
    (env.samples air.context.numTransitionConstraints (env.samples nb (env.samples nb
      (transcriptRound1 env air roots env.tr.init)).2).2).2).2 rootH.val

/-- The prover succeeds when the auxiliary trace for the challenges drawn is well formed, the second round succeeds
with a polynomial of degree below `2^(m+1)`, a point is found and a nonce is found. -/
theorem prove_exists_of_round2_at {PI : Type} {new : AirNew F Ch PI} {pi : PI} {options : ProofOptions}
    {air : Air F Ch} {a b : Nat} (ha : 1 ≤ a) (hab : a + b < 64) (had : a + b ≤ env.ta.adicity)
    (hnew : new (2 ^ a) pi options = .ok air)
    (hn : air.traceLength = 2 ^ a) (hblow : air.context.proofOptions.blowupFactor.toNat = 2 ^ b) (hb : 1 ≤ b)
    {m : Nat} (ham : a ≤ m) (hmb : m + 1 ≤ a + b)
    {rows : List (List F)} {k : Nat} (hk : 0 < k) (hrows : rows.length = 2 ^ a)
    (hr : ∀ r ∈ rows, r.length = k)
    (Q : Ch → List (List F) → Prop)
    (hround2 : ∀ d g w, IsDomain env.ta d a b (air.context.proofOptions.cosetOffset : F) g w → ∀ full r1,
      IsRound1 env a b (air.context.proofOptions.cosetOffset : F) g w full r1 →
      r1.tracePolys.length = air.context.traceColumns → Q r1.rapChallenges full → ∀ bcs,
      air.boundaryConstraints r1.rapChallenges = .ok bcs → ∀ tc bc, ∃ (H : F[X]) (r2 : Round2 F), H.degree < (2 * 2 ^ m : Nat) ∧
        round2 env air d r1 tc bc = .ok r2 ∧
        IsRound2 env a b (air.context.proofOptions.cosetOffset : F) w H r2) :
    ∃ d, Domain.new env.ta air = .ok d ∧ d.ldeRootsOfUnityCoset.length = 2 ^ (a + b) ∧
      d.traceRootsOfUnity.length = 2 ^ a ∧ ∃ root0 : Commitment, CommitmentTo env air (ofRows rows k) root0 ∧ ∀ aux bcs full,
      air.buildAuxiliaryTrace (ofRows rows k) (buildRapChallenges env air (env.tr.append env.tr.init root0.val)).1
        = .ok aux →
      air.boundaryConstraints (buildRapChallenges env air (env.tr.append env.tr.init root0.val)).1 = .ok bcs →
      JoinedRows air rows k aux full → Q (buildRapChallenges env air (env.tr.append env.tr.init root0.val)).1 full →
      ∃ rest rootH,
        (env.tr.sampleZOod env.ofDigest d.ldeRootsOfUnityCoset d.traceRootsOfUnity
          (beforePoint env air (root0 :: rest) bcs.length rootH) ≠ none →
        ∃ challenge, Grinding.generateNonce env.keccak challenge
            air.context.proofOptions.grindingFactor.toNat ≠ none →
          ∃ proof, prove env new (ofRows rows k) pi options = .ok proof) := by
  obtain ⟨d, hd⟩ := domain_exists (ta := env.ta) ha hn hblow hab had
  obtain ⟨g, w, D⟩ := domain_new ha hn hblow hd
  obtain ⟨root0, ⟨r0, hr0, hr0'⟩, hex⟩ := round1_exists_at D hk hrows hr env.tr.init (air := air)
  refine ⟨d, hd, D.lde_length, by rw [D.traceRoots]; simp, root0, ⟨d, r0, hd, hr0, hr0'⟩, fun aux0 boundary full0 haux0 hbc hs0 hQ => ?_⟩
  obtain ⟨r1, t1, rest, hr1, hroots, hrap⟩ := hex aux0 haux0 (by
    rcases hs0 with ⟨h0, -⟩ | ⟨auxRows, h0, htab, hl1, hl2, -⟩
    · exact .inl h0
    · exact .inr ⟨auxRows, h0, htab, hl1, hl2⟩)
  rw [← hrap] at haux0 hbc hQ
  obtain ⟨-, -, -, -, ht1, aux, haux, hor⟩ := round1_ok D hk hrows hr hr1
  rw [hroots] at ht1
  rw [haux0] at haux
  obtain rfl := Outcome.ok.inj haux
  obtain ⟨full, R1, hplen, hfull⟩ : ∃ full, IsRound1 env a b
        (air.context.proofOptions.cosetOffset : F) g w full r1 ∧
      r1.tracePolys.length = air.context.traceColumns ∧
      Q r1.rapChallenges full := by
    have hs := hQ
    rcases hs0 with ⟨h0, hkk, rfl⟩ | ⟨auxRows, h0, htab, hl1, hl2, hkk, rfl⟩
    · rcases hor with ⟨-, R1, hp⟩ | ⟨hpos, -⟩
      · exact ⟨_, R1, by rw [hp, hkk], hs⟩
      · omega
    · rcases hor with ⟨h00, -, -⟩ | ⟨-, hall⟩
      · omega
      · obtain ⟨R1, hp⟩ := hall auxRows (by
          cases aux0
          simp only at htab
          subst htab
          rfl) (by rw [hl1, hrows]) hl2
        exact ⟨_, R1, by rw [hp, hkk], hs⟩
  generalize hB : env.samples boundary.length t1 = x2
  generalize hB2 : env.samples boundary.length x2.2 = x3
  generalize hT : env.samples air.context.numTransitionConstraints x3.2 = x4
  generalize hT2 : env.samples air.context.numTransitionConstraints x4.2 = x5
  obtain ⟨H, r2, hHdeg, hr2, R2⟩ := hround2 d g w D full r1 R1 hplen hfull boundary hbc (x4.1.zip x5.1) (x2.1.zip x3.1)
  refine ⟨rest, r2.compositionPolyRoot, fun hz => ?_⟩
  have hbefore : beforePoint env air (root0 :: rest) boundary.length r2.compositionPolyRoot
      = env.tr.append x5.2 r2.compositionPolyRoot.val := by
    unfold beforePoint
    rw [← ht1, hB, hB2, hT, hT2]
  rw [hbefore] at hz
  obtain ⟨⟨z, tz⟩, hzz⟩ := Option.ne_none_iff_exists'.mp hz
  obtain ⟨t7, ht7⟩ : ∃ t7, t7 = List.foldl (fun t row => List.foldl env.appendField t row)
    (env.appendField (env.appendField tz (round3 air d r1 r2 z).compositionPolyEvenOodEvaluation)
      (round3 air d r1 r2 z).compositionPolyOddOodEvaluation) (round3 air d r1 r2 z).traceOodEvaluations :=
    ⟨_, rfl⟩
  have hframe : (round3 air d r1 r2 z).traceOodEvaluations
      = frameRows r1.tracePolys air.context.transitionOffsets g z := by
    simp only [round3, Frame.getTraceEvaluations, frameRows, List.map_map, D.tracePrimitiveRoot]
    rfl
  have hn0 : 0 < 2 ^ m := by positivity
  have hdeg : ∀ p ∈ r1.tracePolys, p.degree < (2 ^ m : Nat) := fun p hp => lt_of_lt_of_le (R1.degree p hp)
    (by exact_mod_cast Nat.pow_le_pow_right (by norm_num) ham)
  obtain ⟨hs1, hs2, hs3, hs4⟩ := sampleRows_samples (env := env) air.context.transitionOffsets.length
    air.context.traceColumns (env.sample (env.sample t7).2).2
  obtain ⟨P, hP1, hP2, hP3⟩ := computeDeep_ok (air := air) (g := g) (z := z) (r2 := r2)
    (r3 := round3 air d r1 r2 z) hframe rfl rfl hs4 (by rw [hplen, hs3]) hn0 hdeg
    (by rw [R2.even]; exact even_degree _ _ hHdeg) (by rw [R2.odd]; exact odd_degree _ _ hHdeg)
    (env.sample t7).1 (env.sample (env.sample t7).2).1
  have hP2 : P.degree < (2 ^ (a + b) : Nat) := lt_of_lt_of_le hP2
    (by exact_mod_cast Nat.pow_le_pow_right (by norm_num) (by omega))
  obtain ⟨⟨last, layers, t'⟩, hc⟩ := Fri.commitPhase_exists
    (t := (sampleRows env air.context.transitionOffsets.length air.context.traceColumns
      (env.sample (env.sample t7).2).2).2) (h := (air.context.proofOptions.cosetOffset : F)) ha hb hab hP2 D.hw
  obtain ⟨hlen, zs, q, ps, hf⟩ := Fri.commitPhase_layers (b := b) ha hc
  refine ⟨(env.tr.challenge t').1, fun hgrind => ?_⟩
  unfold prove
  rw [nRows_ofRows _ _ hk hr, hrows, hnew, Outcome.bind_ok, hd, Outcome.bind_ok, hr1, Outcome.bind_ok]
  simp only [hbc, Outcome.bind_ok, hB, hB2, hT, hT2]
  rw [hr2, Outcome.bind_ok]
  rw [hzz]
  simp only [Outcome.ofOptionUnwrap, Outcome.bind_ok]
  rw [← ht7]
  suffices hr4 : ∃ r4, round4 env air d r1 r2 (round3 air d r1 r2 z) z t7 = .ok r4 by
    obtain ⟨r4, hr4⟩ := hr4
    rw [hr4]
    exact ⟨_, rfl⟩
  unfold round4
  simp only [← hs1, D.tracePrimitiveRoot, hP1, Outcome.bind_ok, D.rootOrder, D.lde_length, ← hs2]
  refine exists_bind hc ?_
  obtain ⟨nonce, hnonce⟩ := Option.ne_none_iff_exists'.mp hgrind
  refine exists_bind (ofOptionUnwrap_ok.mpr hnonce) ?_
  obtain ⟨⟨io, t13⟩, hio⟩ := sampleIndices_exists (env := env) (m := 2 ^ (a + b)) (by positivity)
    air.context.proofOptions.friNumberOfQueries
    (env.tr.append (env.tr.challenge t').2 (beBytes 8 nonce))
  have hil := (sampleIndices_inv hio).2
  obtain ⟨ql, hql⟩ := mapOutcome_exists (f := Fri.answerQuery env layers) (l := io)
    (fun iota _ => Fri.answerQuery_exists hb hab D.hw hP2 hlen hf iota)
  obtain ⟨op, hop⟩ := mapOutcome_exists (f := openDeepAt env d r1 r2) (l := io) (fun iota hi => by
    obtain ⟨o, ho, -⟩ := openDeepAt_ok D R1 R2 (hil iota hi)
    exact ⟨o, ho⟩)
  have hqp : Fri.queryPhase env air.context.proofOptions.friNumberOfQueries (2 ^ (a + b)) layers
      (env.tr.append (env.tr.challenge t').2 (beBytes 8 nonce)) = .ok (ql, io, t13) := by
    unfold Fri.queryPhase
    rw [if_neg (by
      intro hcc
      rw [List.isEmpty_iff.mp hcc] at hlen
      simp at hlen
      omega), hio]
    simp only [Outcome.bind_ok, hql, Outcome.pure_eq]
  exact exists_bind hqp (exists_bind hop ⟨_, rfl⟩)

/-- The sampling of a point ends when it does for all lists of the sizes of the domains. -/
theorem samplingEnds_of {air : Air F Ch} {a b : Nat} (S : Setting air a b)
    (h : ∀ lde trace t, lde.length = 2 ^ (a + b) → trace.length = 2 ^ a →
      env.tr.sampleZOod env.ofDigest lde trace t ≠ none) : SamplingEnds env air := by
  intro d t hd
  obtain ⟨g, w, D⟩ := domain_new S.rows S.length S.blowup hd
  exact h _ _ _ D.lde_length (by rw [D.traceRoots]; simp)

/-- The prover succeeds when the auxiliary trace is well formed and the second round succeeds with a polynomial of
degree below `2^(m+1)`. -/
theorem prove_exists_of_round2 {PI : Type} {new : AirNew F Ch PI} {pi : PI} {options : ProofOptions}
    {air : Air F Ch} {a b : Nat} (ha : 1 ≤ a) (hab : a + b < 64) (had : a + b ≤ env.ta.adicity)
    (hnew : new (2 ^ a) pi options = .ok air)
    (hn : air.traceLength = 2 ^ a) (hblow : air.context.proofOptions.blowupFactor.toNat = 2 ^ b) (hb : 1 ≤ b)
    {m : Nat} (ham : a ≤ m) (hmb : m + 1 ≤ a + b)
    {rows : List (List F)} {k : Nat} (hk : 0 < k) (hrows : rows.length = 2 ^ a)
    (hr : ∀ r ∈ rows, r.length = k)
    (Q : Ch → List (List F) → Prop)
    (hsat : ∀ root, CommitmentTo env air (ofRows rows k) root → ∃ aux bcs,
      air.buildAuxiliaryTrace (ofRows rows k) (challengesAfter env air root) = .ok aux ∧
      air.boundaryConstraints (challengesAfter env air root) = .ok bcs ∧
      ∃ full, JoinedRows air rows k aux full ∧ Q (challengesAfter env air root) full)
    (hround2 : ∀ d g w, IsDomain env.ta d a b (air.context.proofOptions.cosetOffset : F) g w → ∀ full r1,
      IsRound1 env a b (air.context.proofOptions.cosetOffset : F) g w full r1 →
      r1.tracePolys.length = air.context.traceColumns → Q r1.rapChallenges full → ∀ bcs,
      air.boundaryConstraints r1.rapChallenges = .ok bcs → ∀ tc bc, ∃ (H : F[X]) (r2 : Round2 F), H.degree < (2 * 2 ^ m : Nat) ∧
        round2 env air d r1 tc bc = .ok r2 ∧
        IsRound2 env a b (air.context.proofOptions.cosetOffset : F) w H r2)
    (hz : SamplingEnds env air)
    (hgrind : ∀ challenge, Grinding.generateNonce env.keccak challenge
      air.context.proofOptions.grindingFactor.toNat ≠ none) :
    ∃ proof, prove env new (ofRows rows k) pi options = .ok proof := by
  obtain ⟨d, hd, h5, h6, root0, hroot0, h⟩ :=
    prove_exists_of_round2_at (env := env) ha hab had hnew hn hblow hb ham hmb hk hrows hr Q hround2
  obtain ⟨aux, bcs, h1, h2, full, h3, h4⟩ := hsat root0 hroot0
  obtain ⟨rest, rootH, h⟩ := h aux bcs full h1 h2 h3 h4
  obtain ⟨c, h⟩ := h (hz _ _ hd)
  exact h (hgrind c)

/-- The prover succeeds on a satisfying trace. -/
theorem prove_exists {PI : Type} {new : AirNew F Ch PI} {pi : PI} {options : ProofOptions}
    {air : Air F Ch} {a b : Nat} (ha : 1 ≤ a) (hab : a + b < 64) (had : a + b ≤ env.ta.adicity)
    (hnew : new (2 ^ a) pi options = .ok air)
    (hn : air.traceLength = 2 ^ a) (hblow : air.context.proofOptions.blowupFactor.toNat = 2 ^ b) (hb : 1 ≤ b)
    (hh : (air.context.proofOptions.cosetOffset : F) ≠ 0)
    (hN : (air.context.proofOptions.cosetOffset : F) ^ 2 ^ (a + b) ≠ 1) (hfit : Fits air)
    {rows : List (List F)} {k : Nat} (hk : 0 < k) (hrows : rows.length = 2 ^ a)
    (hr : ∀ r ∈ rows, r.length = k)
    (hc : ∀ ch, ∃ cs, PolynomialConstraints air ch cs)
    (hsat : ∀ root, CommitmentTo env air (ofRows rows k) root → ∃ aux bcs,
      air.buildAuxiliaryTrace (ofRows rows k) (challengesAfter env air root) = .ok aux ∧
      air.boundaryConstraints (challengesAfter env air root) = .ok bcs ∧
      SatisfiesExtended air rows k (challengesAfter env air root) aux)
    (hz : SamplingEnds env air)
    (hgrind : ∀ challenge, Grinding.generateNonce env.keccak challenge
      air.context.proofOptions.grindingFactor.toNat ≠ none) :
    ∃ proof, prove env new (ofRows rows k) pi options = .ok proof := by
  refine prove_exists_of_round2 ha hab had hnew hn hblow hb le_rfl (by omega) hk hrows hr
    (fun ch full => Satisfies air full air.context.traceColumns ch) (fun root hroot => ?_) ?_ hz hgrind
  · obtain ⟨aux, bcs, h1, h2, h3⟩ := hsat root hroot
    refine ⟨aux, bcs, h1, h2, ?_⟩
    rcases h3 with ⟨h0, hkk, hs⟩ | ⟨auxRows, h0, htab, hl1, hl2, hkk, hs⟩
    · exact ⟨_, .inl ⟨h0, hkk, rfl⟩, hs⟩
    · exact ⟨_, .inr ⟨auxRows, h0, htab, hl1, hl2, hkk, rfl⟩, hs⟩
  · intro d g w D full r1 R1 hplen hfull bcs hbc tc bc
    obtain ⟨cs, hcs⟩ := hc r1.rapChallenges
    obtain ⟨H, r2, -, hHdeg, -, hr2, R2⟩ := round2_satisfies D hh hfit hn hblow hb rfl hN R1 hplen hcs hfull hbc tc bc
    exact ⟨H, r2, hHdeg, hr2, R2⟩

/-- The prover succeeds on a trace that is satisfying for the challenges it draws, when a point and a nonce are
found. -/
theorem prove_exists_at {PI : Type} {new : AirNew F Ch PI} {pi : PI} {options : ProofOptions}
    {air : Air F Ch} {a b : Nat} (ha : 1 ≤ a) (hab : a + b < 64) (had : a + b ≤ env.ta.adicity)
    (hnew : new (2 ^ a) pi options = .ok air)
    (hn : air.traceLength = 2 ^ a) (hblow : air.context.proofOptions.blowupFactor.toNat = 2 ^ b) (hb : 1 ≤ b)
    (hh : (air.context.proofOptions.cosetOffset : F) ≠ 0)
    (hN : (air.context.proofOptions.cosetOffset : F) ^ 2 ^ (a + b) ≠ 1) (hfit : Fits air)
    {rows : List (List F)} {k : Nat} (hk : 0 < k) (hrows : rows.length = 2 ^ a)
    (hr : ∀ r ∈ rows, r.length = k)
    (hc : ∀ ch, ∃ cs, PolynomialConstraints air ch cs) :
    ∃ d, Domain.new env.ta air = .ok d ∧ d.ldeRootsOfUnityCoset.length = 2 ^ (a + b) ∧
      d.traceRootsOfUnity.length = 2 ^ a ∧ ∃ root0 : Commitment, CommitmentTo env air (ofRows rows k) root0 ∧ ∀ aux bcs,
      air.buildAuxiliaryTrace (ofRows rows k) (buildRapChallenges env air (env.tr.append env.tr.init root0.val)).1
        = .ok aux →
      air.boundaryConstraints (buildRapChallenges env air (env.tr.append env.tr.init root0.val)).1 = .ok bcs →
      SatisfiesExtended air rows k (buildRapChallenges env air (env.tr.append env.tr.init root0.val)).1 aux →
      ∃ rest rootH,
        (env.tr.sampleZOod env.ofDigest d.ldeRootsOfUnityCoset d.traceRootsOfUnity
          (beforePoint env air (root0 :: rest) bcs.length rootH) ≠ none →
        ∃ challenge, Grinding.generateNonce env.keccak challenge
            air.context.proofOptions.grindingFactor.toNat ≠ none →
          ∃ proof, prove env new (ofRows rows k) pi options = .ok proof) := by
  obtain ⟨d, hd, h5, h6, root0, hroot0, h⟩ :=
    prove_exists_of_round2_at (env := env) ha hab had hnew hn hblow hb le_rfl (by omega) hk hrows hr
      (fun ch full => Satisfies air full air.context.traceColumns ch) (by
    intro d g w D full r1 R1 hplen hfull bcs hbc tc bc
    obtain ⟨cs, hcs⟩ := hc r1.rapChallenges
    obtain ⟨H, r2, -, hHdeg, -, hr2, R2⟩ := round2_satisfies D hh hfit hn hblow hb rfl hN R1 hplen hcs hfull hbc tc bc
    exact ⟨H, r2, hHdeg, hr2, R2⟩)
  refine ⟨d, hd, h5, h6, root0, hroot0, fun aux bcs h1 h2 h3 => ?_⟩
  rcases h3 with ⟨h0, hkk, hs⟩ | ⟨auxRows, h0, htab, hl1, hl2, hkk, hs⟩
  · exact h aux bcs _ h1 h2 (.inl ⟨h0, hkk, rfl⟩) hs
  · exact h aux bcs _ h1 h2 (.inr ⟨auxRows, h0, htab, hl1, hl2, hkk, rfl⟩) hs

/-- The prover succeeds on every trace of the right shape, if the field has the roots it needs to evaluate the halves
of a composition polynomial of the largest degree. -/
theorem prove_total {PI : Type} {new : AirNew F Ch PI} {pi : PI} {options : ProofOptions}
    {air : Air F Ch} {a b : Nat} (ha : 1 ≤ a) (hab : a + 2 * b ≤ 64) (had : a + 2 * b ≤ env.ta.adicity + 1)
    (hnew : new (2 ^ a) pi options = .ok air)
    (hn : air.traceLength = 2 ^ a) (hblow : air.context.proofOptions.blowupFactor.toNat = 2 ^ b) (hb : 1 ≤ b)
    (hh : (air.context.proofOptions.cosetOffset : F) ≠ 0)
    (hN : (air.context.proofOptions.cosetOffset : F) ^ 2 ^ (a + b) ≠ 1) (hfit : Fits air)
    {rows : List (List F)} {k : Nat} (hk : 0 < k) (hrows : rows.length = 2 ^ a)
    (hr : ∀ r ∈ rows, r.length = k)
    (hc : ∀ ch, ∃ cs, PolynomialConstraints air ch cs)
    (hshape : ∀ root, CommitmentTo env air (ofRows rows k) root → ∃ aux bcs,
      air.buildAuxiliaryTrace (ofRows rows k) (challengesAfter env air root) = .ok aux ∧
      air.boundaryConstraints (challengesAfter env air root) = .ok bcs ∧ ∃ full, JoinedRows air rows k aux full)
    (hcols : ∀ ch bcs, air.boundaryConstraints ch = .ok bcs → ∀ c ∈ bcs, c.col < air.context.traceColumns)
    (hz : SamplingEnds env air)
    (hgrind : ∀ challenge, Grinding.generateNonce env.keccak challenge
      air.context.proofOptions.grindingFactor.toNat ≠ none) :
    ∃ proof, prove env new (ofRows rows k) pi options = .ok proof := by
  refine prove_exists_of_round2 ha (by omega) (by omega) hnew hn hblow hb (m := a + b - 1) (by omega) (by omega) hk
    hrows hr (fun _ _ => True) (fun root hroot => ?_) ?_ hz hgrind
  · obtain ⟨aux, bcs, h1, h2, full, h3⟩ := hshape root hroot
    exact ⟨aux, bcs, h1, h2, full, h3, trivial⟩
  · intro d g w D full r1 R1 hplen _ bcs hbc tc bc
    obtain ⟨cs, hcs⟩ := hc r1.rapChallenges
    have hev := evaluateConstraints_ok D hfit hn hblow hb rfl hN hplen
      (fun c hcm => by rw [hplen]; exact hcols _ _ hbc c hcm)
      (fun i => constraintsAt cs r1.tracePolys air.context.transitionOffsets g
        (w ^ i * (air.context.proofOptions.cosetOffset : F)))
      (fun i _ => constraintsAt_computes hcs hplen g _) tc bc
    rw [← R1.lde] at hev
    generalize hvals : (List.range (2 ^ (a + b))).map (fun i => compositionAt air g r1.tracePolys bcs
        (constraintsAt cs r1.tracePolys air.context.transitionOffsets g
          (w ^ i * (air.context.proofOptions.cosetOffset : F))) bc tc
        (w ^ i * (air.context.proofOptions.cosetOffset : F))) = vals at hev
    have hlen : vals.length = 2 ^ (a + b) := by simp [← hvals]
    obtain ⟨H, -, hH, hval⟩ := interpolateOffsetFft_ok (by omega) D.small D.hw hh vals hlen
    have hmap : evaluateConstraints env.ta air bcs r1.ldeTrace d tc bc r1.rapChallenges
        = .ok ((List.range (2 ^ (a + b))).map fun i => H.eval (w ^ i * (air.context.proofOptions.cosetOffset : F))) := by
      rw [hev]
      refine congrArg Outcome.ok (List.ext_getElem (by simp [hlen]) fun i h1 h2 => ?_)
      rw [List.getElem_map, List.getElem_range, hval i (by rwa [← hlen]), List.getD_eq_getElem _ _ h1]
    have hH2 : H.degree < (2 * 2 ^ (a + b - 1) : Nat) := by
      rwa [← pow_succ', Nat.sub_add_cancel (by omega)]
    obtain ⟨r2, hr2, R2⟩ := round2_of_evaluations D hh hb (m := a + b - 1) (by omega) (by omega) (by omega) (by omega)
      hbc hH2 hmap
    exact ⟨H, r2, hH2, hr2, R2⟩

end Verif
