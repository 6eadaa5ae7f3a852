import Verif.Lemmas.ForgedProof

/-! Helper lemmas about proofs that claim a trace length which is not a power of two. -/

namespace Verif
open Polynomial Spec
variable {F T Ch : Type} [Field F] [DecidableEq F] {env : Env F T}

theorem trailingZeros_mul_pow {m k : Nat} (hm : m % 2 = 1) (h : m * 2 ^ k < 2 ^ 64) :
    trailingZeros 64 (m * 2 ^ k) = k := by
  have hk : k < 64 := by
    by_contra hk
    have h1 : 2 ^ 64 ≤ 2 ^ k := Nat.pow_le_pow_right (by norm_num) (by omega)
    have h2 : 1 * 2 ^ k ≤ m * 2 ^ k := Nat.mul_le_mul_right _ (by omega)
    omega
  apply le_antisymm
  · by_contra hlt
    have h1 := (le_trailingZeros 64 (m * 2 ^ k) (k + 1) h).1 (by omega)
    have h2 := h1.2
    rw [pow_succ', Nat.mul_dvd_mul_iff_right (by positivity)] at h2
    omega
  · exact (le_trailingZeros 64 (m * 2 ^ k) k h).2 ⟨hk.le, Dvd.intro_left m rfl⟩

/-- `d` is the domain of a trace of `m * 2^a` rows and `d0` that of one of `2^a` rows: the lists of points of `d` go
through the points of `d0` again and again. -/
structure Longer (ta : TwoAdic F) (d d0 : Domain F) (a b m : Nat) (h g w : F) : Prop where
  short : IsDomain ta d0 a b h g w
  rootOrder : d.rootOrder = a
  ldeRootOrder : d.ldeRootOrder = a + b
  tracePrimitiveRoot : d.tracePrimitiveRoot = g
  traceRoots : d.traceRootsOfUnity = (List.range (m * 2 ^ a)).map fun i => g ^ i
  lde : d.ldeRootsOfUnityCoset = (List.range (m * 2 ^ (a + b))).map fun i => w ^ i * h

omit [DecidableEq F] in
theorem domain_mul {ta : TwoAdic F} {air : Air F Ch} {a b m : Nat} (ha : 1 ≤ a) (hm : m % 2 = 1)
    (hn : air.traceLength = m * 2 ^ a) (hb : air.context.proofOptions.blowupFactor.toNat = 2 ^ b)
    (hsize : m * 2 ^ (a + b) < 2 ^ 64) (had : a + b ≤ ta.adicity) :
    ∃ d d0 g w, Domain.new ta air = .ok d ∧
      Longer ta d d0 a b m (air.context.proofOptions.cosetOffset : F) g w := by
  obtain ⟨g, hg⟩ := Option.isSome_iff_exists.mp (ta.defined a ha (by omega))
  obtain ⟨w, hw⟩ := Option.isSome_iff_exists.mp (ta.defined (a + b) (by omega) had)
  have hsmall : m * 2 ^ a < 2 ^ 64 := by
    refine lt_of_le_of_lt (Nat.mul_le_mul_left m (Nat.pow_le_pow_right (by norm_num) ?_)) hsize
    omega
  have hmul : m * 2 ^ a * 2 ^ b = m * 2 ^ (a + b) := by rw [pow_add, mul_assoc]
  have hab : a + b < 64 := by
    by_contra hc
    have h1 : 2 ^ 64 ≤ 2 ^ (a + b) := Nat.pow_le_pow_right (by norm_num) (by omega)
    have h2 : 1 * 2 ^ (a + b) ≤ m * 2 ^ (a + b) := Nat.mul_le_mul_right _ (by omega)
    omega
  refine ⟨{ rootOrder := a, ldeRootsOfUnityCoset := (List.range (m * 2 ^ (a + b))).map
              fun i => w ^ i * (air.context.proofOptions.cosetOffset : F),
            ldeRootOrder := a + b, tracePrimitiveRoot := g,
            traceRootsOfUnity := (List.range (m * 2 ^ a)).map fun i => g ^ i * 1,
            cosetOffset := (air.context.proofOptions.cosetOffset : F), blowupFactor := 2 ^ b,
            interpolationDomainSize := m * 2 ^ a },
    { rootOrder := a, ldeRootsOfUnityCoset := (List.range (2 ^ (a + b))).map
        fun i => w ^ i * (air.context.proofOptions.cosetOffset : F),
      ldeRootOrder := a + b, tracePrimitiveRoot := g,
      traceRootsOfUnity := (List.range (2 ^ a)).map fun i => g ^ i,
      cosetOffset := (air.context.proofOptions.cosetOffset : F), blowupFactor := 2 ^ b,
      interpolationDomainSize := 2 ^ a }, g, w, ?_,
    ⟨⟨ha, hab, hg, hw, rfl, rfl, rfl, rfl, rfl, rfl, rfl, rfl⟩, rfl, rfl, rfl, by simp, rfl⟩⟩
  unfold Domain.new
  simp only [hn, hb]
  rw [trailingZeros_mul_pow hm hsmall, getRoot_ok.mpr hg, powersCoset_ok.mpr ⟨g, hg, rfl⟩]
  simp only [Outcome.bind_ok, hmul]
  rw [if_neg (by omega), trailingZeros_mul_pow hm hsize, powersCoset_ok.mpr ⟨w, hw, rfl⟩]
  rfl

namespace Longer
variable {ta : TwoAdic F} {d d0 : Domain F} {a b m : Nat} {h g w : F}

omit [DecidableEq F] in
theorem lde_getElem? (L : Longer ta d d0 a b m h g w) (hm : 0 < m) {i : Nat} (hi : i < 2 ^ (a + b)) :
    d.ldeRootsOfUnityCoset[i]? = some (w ^ i * h) := by
  have : i < m * 2 ^ (a + b) := lt_of_lt_of_le hi (Nat.le_mul_of_pos_left _ hm)
  rw [L.lde, List.getElem?_map, List.getElem?_range this]; rfl

omit [DecidableEq F] in
/-- A point outside the trace domain is not a root of unity of the claimed length, when the field has no further
roots of unity of the odd part of the length. -/
theorem pow_ne_one (L : Longer ta d d0 a b m h g w) (hm : 0 < m) (hroots : ∀ y : F, y ^ m = 1 → y = 1) {x : F}
    (hx : x ∉ d.traceRootsOfUnity) : x ^ (m * 2 ^ a) ≠ 1 := by
  intro h1
  have h2 : x ^ 2 ^ a = 1 := hroots _ (by rw [← pow_mul, mul_comm]; exact h1)
  refine ((L.short.notMem_trace_iff x).mp fun hmem => hx ?_) h2
  rw [L.short.traceRoots] at hmem
  obtain ⟨i, hi, rfl⟩ := List.mem_map.mp hmem
  rw [L.traceRoots]
  refine List.mem_map.mpr ⟨i, List.mem_range.mpr (lt_of_lt_of_le (List.mem_range.mp hi) ?_), rfl⟩
  exact Nat.le_mul_of_pos_left _ hm

theorem step2_eq (L : Longer ta d d0 a b m h g w) (hm0 : 0 < m) {air : Air F Ch} (hfit : Fits air)
    (hn : air.traceLength = m * 2 ^ a) {proof : StarkProof F} {c : Challenges F Ch} (hz : c.z ^ (m * 2 ^ a) ≠ 1)
    {boundary : List (BoundaryConstraint F)} (hb : air.boundaryConstraints c.rapChallenges = .ok boundary)
    {row0 : List F} (hrow : proof.traceOodFrameEvaluations.getRow 0 = (.ok row0 : Outcome Empty _))
    (hcols : ∀ c ∈ boundary, c.col < row0.length) {evals : List F}
    (hev : air.computeTransition proof.traceOodFrameEvaluations c.rapChallenges = .ok evals) :
    step2 air proof d c = .ok (decide (proof.compositionPolyEvenOodEvaluation
        + c.z * proof.compositionPolyOddOodEvaluation
      = compositionOf air g (fun j => row0.getD j 0) boundary evals c.boundaryCoeffs c.transitionCoeffs
          c.z)) := by
  have hz1 : c.z ^ 2 ^ a ≠ 1 := fun h1 => hz (by rw [mul_comm, pow_mul, h1, one_pow])
  unfold step2
  obtain ⟨e, hm⟩ := hfit.max
  obtain ⟨me, hme⟩ := hfit.maxExemption
  have hpos : 0 < m * 2 ^ a := by positivity
  have hg1 : g ^ (m * 2 ^ a) = 1 := by
    rw [mul_comm, pow_mul, L.short.g_primitive.pow_eq_one, one_pow]
  obtain ⟨l, hl1, hl2, hl3⟩ := transitionExemptionsVerifier_eq (g := g) hg1 hpos hme
  have hlast : d.traceRootsOfUnity.getLast? = some (g ^ (m * 2 ^ a - 1)) := by
    rw [L.traceRoots, List.getLast?_map, List.getLast?_range, if_neg (by omega)]; rfl
  have hadj := hfit.adjustments hm (f := fun k => c.z ^ k)
  have hbd : ∀ bound, oodBoundary proof boundary d c.z c.boundaryCoeffs (bound - air.traceLength)
      = .ok (boundaryAt g c.z air.traceLength bound (fun j => row0.getD j 0) boundary c.boundaryCoeffs) := by
    intro bound
    rw [← oodBoundary_ok L.short hz1 hrow hcols]
    unfold oodBoundary
    rw [L.tracePrimitiveRoot, L.short.tracePrimitiveRoot]
  rw [hb, Outcome.bind_ok]
  simp only [checkedSub, if_pos hfit.bound_ge, Outcome.bind_ok]
  rw [hbd, Outcome.bind_ok, hev, Outcome.bind_ok]
  simp only [invOrPanic, hn, if_neg (sub_ne_zero.mpr hz), Outcome.bind_ok, hlast, Outcome.ofOptionUnwrap, hl1,
    hm]
  simp only [hn, checkedSub] at hadj
  rw [hadj, Outcome.bind_ok, oodTransition_ok hfit hn hm hme hl3, Outcome.bind_ok, Outcome.pure_eq]
  unfold compositionOf
  rw [hn]

theorem forgery_step3 (L : Longer env.ta d d0 a b m h g w) (hm : 0 < m) (hh : h ≠ 0)
    {c : Challenges F Ch} (hi : ∀ i ∈ c.iotas, i < 2 ^ d.ldeRootOrder) {n : Nat} {root root' : Commitment}
    {frame : Frame F} {even odd last : F} {queries nonce : Nat} :
    step3 env (forgery n root root' frame even odd last queries nonce) d c = .ok true := by
  refine step3_true.mpr ⟨L.short.two_ne, fun iota h1 => ?_, fun i q iota x h1 h2 h3 => ?_⟩
  · have := hi iota h1
    rw [L.ldeRootOrder] at this
    exact ⟨_, L.lde_getElem? hm this, mul_ne_zero (pow_ne_zero _ L.short.w_ne) hh⟩
  · have hq := List.mem_of_getElem? h1
    simp only [forgery, List.mem_replicate] at hq
    obtain ⟨-, rfl⟩ := hq
    refine ⟨by simp, fun k root path v pathSym vSym h1 => ?_⟩
    simp [forgery] at h1

theorem forgery_step4 {air : Air F Ch} (L : Longer env.ta d d0 a b m h g w) (hm : 0 < m)
    {c : Challenges F Ch} (hi : ∀ i ∈ c.iotas, i < 2 ^ d.ldeRootOrder)
    (hz : ∀ i : Nat, w ^ i * h ≠ c.z ^ 2) {n : Nat} {root root' : Commitment}
    {frame : Frame F} {even odd last : F} {queries nonce : Nat} :
    step4 env air (forgery n root root' frame even odd last queries nonce) d c = .ok true := by
  unfold step4
  rw [L.rootOrder, getRoot_ok.mpr L.short.hg, Outcome.bind_ok]
  simp only
  rw [mapOutcome_eq_map (g := fun i => w ^ i * h - c.z ^ 2), Outcome.bind_ok, batchInverse_ok, Outcome.bind_ok]
  · simp [forgery]
  · intro x hx
    obtain ⟨i, -, rfl⟩ := List.mem_map.mp hx
    exact sub_ne_zero.mpr (hz i)
  · intro i hi'
    have := hi i hi'
    rw [L.ldeRootOrder] at this
    rw [index_ok (L.lde_getElem? hm this), Outcome.bind_ok, Outcome.pure_eq]

end Longer

/-- For any commitments and any claimed out-of-domain values of the trace there is an accepted proof that claims
`m * 2^a` rows, when the boundary constraints exist for the challenges drawn, and a point and a nonce are found. -/
theorem forgery_accepted_long_at {PI : Type} {new : AirNew F Ch PI} {pi : PI}
    {options : ProofOptions} {air : Air F Ch} {a b m : Nat} (ha : 1 ≤ a) (hm : m % 2 = 1)
    (hn : air.traceLength = m * 2 ^ a) (hbl : air.context.proofOptions.blowupFactor.toNat = 2 ^ b)
    (hoff : (air.context.proofOptions.cosetOffset : F) ≠ 0) (hfit : Fits air)
    (hsize : m * 2 ^ (a + b) < 2 ^ 64) (had : a + b ≤ env.ta.adicity)
    (hroots : ∀ y : F, y ^ m = 1 → y = 1)
    (hz2 : ∀ w z : F, env.ta.root (a + b) = some w → ∀ i : Nat,
      w ^ i * (air.context.proofOptions.cosetOffset : F) ≠ z ^ 2)
    (hnew : new (m * 2 ^ a) pi options = .ok air) (hopt : air.context.proofOptions = options)
    (hc : ∀ ch, ∃ cs, PolynomialConstraints air ch cs)
    (root compositionRoot : Commitment) {bcs : List (BoundaryConstraint F)}
    (hbcs : air.boundaryConstraints (challengesAfter env air root) = .ok bcs)
    (hcols : ∀ c ∈ bcs, c.col < air.context.traceColumns)
    (hz : ∀ d, Domain.new env.ta air = .ok d → env.tr.sampleZOod env.ofDigest d.ldeRootsOfUnityCoset
      d.traceRootsOfUnity (beforePoint env air [root] bcs.length compositionRoot) ≠ none)
    (hgrind : ∀ challenge, Grinding.generateNonce env.keccak challenge
      air.context.proofOptions.grindingFactor.toNat ≠ none)
    {rows : List (List F)}
    (hrows : rows.length = air.context.transitionOffsets.length)
    (hr : ∀ r ∈ rows, r.length = air.context.traceColumns) (odd last : F)
    {queries : Nat} (hq : options.friNumberOfQueries ≤ queries) :
    ∃ even nonce, nonce < 2 ^ 64 ∧ verify env new (forgery (m * 2 ^ a) root compositionRoot
      ⟨rows.flatten, air.context.traceColumns⟩ even odd last queries nonce) pi options
        = .ok true := by
  have hm0 : 0 < m := by omega
  obtain ⟨d, d0, g, w, hd, L⟩ := domain_mul (ta := env.ta) ha hm hn hbl hsize had
  have hlen : 0 < rows.length := by rw [hrows]; exact hfit.offsets_pos
  have hf : ∀ t : T, ∃ t', appendFrame env ⟨rows.flatten, air.context.traceColumns⟩ t = .ok t' :=
    appendFrame_exists hfit.columns_pos hr
  obtain ⟨c, t, h1, hrap⟩ := step1_exists_at (env := env) (air := air) (d := d)
    (proof := forgery (m * 2 ^ a) root compositionRoot ⟨rows.flatten, air.context.traceColumns⟩ 0 odd last
      queries 0) rfl (by rw [L.ldeRootOrder]; exact L.short.small) hbcs (hz _ hd) hf
  replace hbcs : air.boundaryConstraints c.rapChallenges = .ok bcs := (congrArg _ hrap).trans hbcs
  obtain ⟨cs, hcs⟩ := hc c.rapChallenges
  have hev := hcs.computes rows hrows hr
  set evals := cs.map (MvPolynomial.eval fun ij => (rows.getD ij.1 []).getD ij.2 0)
  obtain ⟨even, heven⟩ : ∃ even, even = compositionOf air g (fun j => (rows.getD 0 []).getD j 0) bcs evals
    c.boundaryCoeffs c.transitionCoeffs c.z - c.z * odd := ⟨_, rfl⟩
  obtain ⟨c', t'', h2, hz', hrap', hbc', htc'⟩ := step1_even hf h1 even odd
  obtain ⟨challenge, h3⟩ := step1_nonce h2
  obtain ⟨nonce, hnonce⟩ := Option.ne_none_iff_exists'.mp (hgrind challenge)
  obtain ⟨iotas, t3, h4⟩ := h3 nonce (List.replicate queries ⟨[], [], [], [0]⟩) []
  refine ⟨even, nonce, (((Props.C52_smallest_nonce_partial _ _ _ _).mp hnonce).1).trans_le (by norm_num), ?_⟩
  replace h4 : step1 env air (forgery (m * 2 ^ a) root compositionRoot ⟨rows.flatten, air.context.traceColumns⟩
    even odd last queries nonce) d env.tr.init = _ := h4
  obtain ⟨hi1, hi2, -, -, -, hi6⟩ := step1_inv h4
  rw [verify_of_steps hd hopt hnew h4 ?_ ?_ ?_ ?_]
  · exact L.forgery_step4 hm0 hi6 fun i => hz2 w _ L.short.hw i
  · rw [Props.C52_check_iff]
    exact ((Props.C52_smallest_nonce_partial _ _ _ _).mp hnonce).2.1
  · simpa [forgery, hopt] using hq
  · rw [L.step2_eq hm0 hfit hn (L.pow_ne_one hm0 hroots hi2) (boundary := bcs) (row0 := rows.getD 0 [])
      (evals := evals)]
    · simp only [forgery, hz', hbc', htc', heven]
      rw [sub_add_cancel, decide_eq_true rfl]
    · exact (congrArg _ hrap').trans hbcs
    · exact ExampleAirs.getRow_flatten hr hlen
    · have h0 : (rows.getD 0 []).length = air.context.traceColumns := by
        rw [List.getD_eq_getElem _ _ hlen]
        exact hr _ (List.getElem_mem _)
      intro x hx
      rw [h0]
      exact hcols x hx
    · exact (congrArg _ hrap').trans hev
  · exact L.forgery_step3 hm0 hoff hi6

/-- For any commitments and any claimed out-of-domain values of the trace there is an accepted proof that claims
`m * 2^a` rows. -/
theorem forgery_accepted_long {PI : Type} {new : AirNew F Ch PI} {pi : PI}
    {options : ProofOptions} {air : Air F Ch} {a b m : Nat} (ha : 1 ≤ a) (hm : m % 2 = 1)
    (hn : air.traceLength = m * 2 ^ a) (hbl : air.context.proofOptions.blowupFactor.toNat = 2 ^ b)
    (hoff : (air.context.proofOptions.cosetOffset : F) ≠ 0) (hfit : Fits air)
    (hsize : m * 2 ^ (a + b) < 2 ^ 64) (had : a + b ≤ env.ta.adicity)
    (hroots : ∀ y : F, y ^ m = 1 → y = 1)
    (hz2 : ∀ w z : F, env.ta.root (a + b) = some w → ∀ i : Nat,
      w ^ i * (air.context.proofOptions.cosetOffset : F) ≠ z ^ 2)
    (hnew : new (m * 2 ^ a) pi options = .ok air) (hopt : air.context.proofOptions = options)
    (hc : ∀ ch, ∃ cs, PolynomialConstraints air ch cs)
    (root compositionRoot : Commitment)
    (hb : ∃ bcs, air.boundaryConstraints (challengesAfter env air root) = .ok bcs ∧
      ∀ c ∈ bcs, c.col < air.context.traceColumns)
    (hz : SamplingEnds env air)
    (hgrind : ∀ challenge, Grinding.generateNonce env.keccak challenge
      air.context.proofOptions.grindingFactor.toNat ≠ none)
    {rows : List (List F)}
    (hrows : rows.length = air.context.transitionOffsets.length)
    (hr : ∀ r ∈ rows, r.length = air.context.traceColumns) (odd last : F)
    {queries : Nat} (hq : options.friNumberOfQueries ≤ queries) :
    ∃ even nonce, nonce < 2 ^ 64 ∧ verify env new (forgery (m * 2 ^ a) root compositionRoot
      ⟨rows.flatten, air.context.traceColumns⟩ even odd last queries nonce) pi options
        = .ok true := by
  obtain ⟨bcs, hbcs, hcols⟩ := hb
  exact forgery_accepted_long_at ha hm hn hbl hoff hfit hsize had hroots hz2 hnew hopt hc root compositionRoot hbcs hcols
    (fun d hd => hz _ _ hd) hgrind hrows hr odd last hq

end Verif
