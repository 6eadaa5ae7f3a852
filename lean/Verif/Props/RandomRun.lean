import Verif.Props.Cli
import Verif.Lemmas.Random

/-!
# C81: an honest run is proved, and the proof accepted, except with small probability
-/

namespace Verif.Props
open Runner Cli Verif.Spec Random Proximity CairoAir ExecTrace Transcript TraceTable
variable {T : Type} {env : Env FE T}

/-! ## Runs with drawn digests -/

section answering
variable {F T : Type} [Field F] [DecidableEq F] {Ch : Type} (env : Env F T) (rest : Nat → Commitment) {s r m : Nat}
  (ρ : Fin s → Commitment) (ζ : Fin r → Commitment) (κ : Fin m → Commitment)

omit [DecidableEq F] in
theorem answering_sample (n : Nat) : (answering env rest ρ ζ κ).sample n
    = (env.ofDigest ((answering env rest ρ ζ κ).tr.challenge n).1, n + 1) := rfl

omit [DecidableEq F] in
theorem answering_samples (k n : Nat) : (answering env rest ρ ζ κ).samples k n
    = ((List.range k).map fun i => env.ofDigest ((answering env rest ρ ζ κ).tr.challenge (n + i)).1, n + k) := by
  unfold Env.samples
  induction k generalizing n with
  | zero => rfl
  | succ k ih =>
    rw [batchSample]
    have h : (answering env rest ρ ζ κ).tr.toField (answering env rest ρ ζ κ).ofDigest n
      = (env.ofDigest ((answering env rest ρ ζ κ).tr.challenge n).1, n + 1) := rfl
    simp only [h, ih, List.range_succ_eq_map, List.map_cons, List.map_map, Nat.add_zero]
    refine Prod.ext ?_ (by show n + 1 + k = n + (k + 1); omega)
    simp only [List.cons.injEq, true_and]
    refine List.map_congr_left fun i _ => ?_
    rw [Function.comp_apply, show n + 1 + i = n + i.succ by omega]

omit [DecidableEq F] in
theorem answering_after (k n : Nat) : (answering env rest ρ ζ κ).tr.after k n = n + k := by
  induction k generalizing n with
  | zero => rfl
  | succ k ih =>
    rw [after]
    have h : ((answering env rest ρ ζ κ).tr.challenge n).2 = n + 1 := rfl
    rw [h, ih]
    omega

omit [DecidableEq F] in
/-- The number of draws before the point. -/
theorem answering_beforePoint (air : Air F Ch) (root0 : Commitment) (roots : List Commitment) (nb : Nat)
    (rootH : Commitment) :
    beforePoint (answering env rest ρ ζ κ) air (root0 :: roots) nb rootH
      = air.numRapChallenges + 2 * nb + 2 * air.context.numTransitionConstraints := by
  have h1 : ∀ t b, (answering env rest ρ ζ κ).tr.append t b = t := fun _ _ => rfl
  have h2 : transcriptRound1 (answering env rest ρ ζ κ) air (root0 :: roots) (answering env rest ρ ζ κ).tr.init
      = air.numRapChallenges := by
    unfold transcriptRound1 buildRapChallenges
    cases roots with
    | nil => simp only [h1, answering_samples]; exact Nat.zero_add _
    | cons x l => simp only [h1, answering_samples]; exact Nat.zero_add _
  unfold beforePoint
  simp only [h1, h2, answering_samples]
  omega

/-- The point is found when one of the digests drawn for it is outside of the domains. -/
theorem answering_point {lde trace : List F}
    (h : ∃ i, env.ofDigest (ζ i) ∉ lde ++ trace) :
    (answering env rest ρ ζ κ).tr.sampleZOod (answering env rest ρ ζ κ).ofDigest lde trace s ≠ none := by
  classical
  obtain ⟨i, hi⟩ := h
  have he : ∃ k, ((answering env rest ρ ζ κ).tr.toField (answering env rest ρ ζ κ).ofDigest
        ((answering env rest ρ ζ κ).tr.after k s)).1 ∉ lde ∧
      ((answering env rest ρ ζ κ).tr.toField (answering env rest ρ ζ κ).ofDigest
        ((answering env rest ρ ζ κ).tr.after k s)).1 ∉ trace := by
    refine ⟨i.val, ?_⟩
    rw [answering_after]
    have h1 : ((answering env rest ρ ζ κ).tr.toField (answering env rest ρ ζ κ).ofDigest (s + i.val)).1
        = env.ofDigest (ζ i) := by
      show env.ofDigest (if h : s + i.val < s then ρ ⟨s + i.val, h⟩ else
        if h : s + i.val - s < r then ζ ⟨s + i.val - s, h⟩ else rest (s + i.val)) = _
      rw [dif_neg (by omega), dif_pos (by omega)]
      congr 2
      exact Fin.ext (by show s + i.val - s = i.val; omega)
    rw [h1]
    simpa [not_or] using hi
  unfold sampleZOod
  rw [dif_pos he]
  exact fun hc => by cases hc

omit [DecidableEq F] in
/-- The nonce is found when one of the digests drawn for it meets the target. -/
theorem answering_nonce (hm : m < 2 ^ 64) {g : Nat} (hg : g ≤ 64)
    (h : ∃ i, 2 ^ g ∣ beNat ((κ i).val.take 8)) (challenge : Commitment) :
    Grinding.generateNonce (answering env rest ρ ζ κ).keccak challenge g ≠ none := by
  intro hn
  obtain ⟨i, hi⟩ := h
  refine (C52_search_fails_iff _ _ _).1 hn i.val (by omega) ⟨hg, ?_⟩
  have h1 : leNat ((challenge.val ++ leBytes 8 i.val).drop 32) = i.val := by
    have hi : i.val < 256 ^ 8 := calc
      i.val < 2 ^ 64 := i.isLt.trans hm
      _ = _ := by norm_num
    rw [List.drop_left' challenge.property]
    exact leNat_leBytes 8 i.val hi
  have h2 : (answering env rest ρ ζ κ).keccak (challenge.val ++ leBytes 8 i.val) = κ i := by
    show (if h : leNat ((challenge.val ++ leBytes 8 i.val).drop 32) < m then _ else _) = _
    rw [dif_pos (by rw [h1]; exact i.isLt)]
    exact congrArg κ (Fin.ext h1)
  rw [h2]
  exact hi

end answering

/-- The prover succeeds on an honest run when the challenges it draws are not denominators, a point is found and a
nonce is found. -/
theorem cairo_prover_at (hta : env.ta = starkRoots) {mem : CairoMemory} {m : FE → FE}
    {states : List RegistersState} (run : HonestRun mem m states) {size : Nat} {segs : MemorySegmentMap}
    {pi pi' : PublicInputs} (hpi : fromRegsAndMem states mem size segs = .ok pi) (hsize : size < 2 ^ 64)
    (hzero : mem.get? 0 = none) (hpc : ∃ t ∈ states, t.pc ≤ size)
    (hsegs : segs = [] ∨ ∃ r, segs.get? .rangeCheck = some r) (hb : BuiltinValues mem segs)
    (hout : OutputAfterProgram size segs) (hcov : OutputCovered m states size segs)
    {main : List (List FE)} (hmain : buildMainTrace states mem pi = .ok (main, pi'))
    {options : ProofOptions} {a b : Nat} (hlen : main.length = 2 ^ a) (hab : a + b < 64) (hb1 : 1 ≤ b)
    (hbl : options.blowupFactor.toNat = 2 ^ b) (hsq : ¬ IsSquare (options.cosetOffset : FE)) :
    ∃ d, Domain.new env.ta (air (2 ^ a) pi' options) = .ok d ∧ d.ldeRootsOfUnityCoset.length = 2 ^ (a + b) ∧
      d.traceRootsOfUnity.length = 2 ^ a ∧ ∃ root0 : Commitment, ∀ ch,
      ch = (buildRapChallenges env (air (2 ^ a) pi' options) (env.tr.append env.tr.init root0.val)).1 →
      (∀ e ∈ accesses main ++ pi.publicMemory, ch.zMemory ≠ e.1 + ch.alphaMemory * e.2) →
      (∀ x ∈ getCols main [OFF_DST, OFF_OP0, OFF_OP1], ch.zRangeCheck ≠ x) →
      ∃ rest rootH,
        (env.tr.sampleZOod env.ofDigest d.ldeRootsOfUnityCoset d.traceRootsOfUnity
          (beforePoint env (air (2 ^ a) pi' options) (root0 :: rest) 8 rootH) ≠ none →
        ∃ challenge, Grinding.generateNonce env.keccak challenge options.grindingFactor.toNat ≠ none →
          ∃ proof, generateCairoProof env ⟨main.flatten, (main.headD []).length⟩ pi' options = .ok proof) := by
  obtain ⟨⟨a', ha, hlen'⟩, hw, hhd, -, hne, lo, hi, hpi'⟩ := main_shape hmain
  obtain rfl : a' = a := Nat.pow_right_injective le_rfl (hlen'.symm.trans hlen)
  have hk : 0 < mainWidth pi := by have := mainWidth_ge pi; omega
  rw [hhd]
  have S := cairo_setting_of ha hb1 pi' hbl hsq
  have hnew : CairoAir.new (2 ^ a') pi' options = .ok (air (2 ^ a') pi' options) := rfl
  have hcoset : (options.cosetOffset : FE) ^ 2 ^ (a' + b) ≠ 1 := by
    intro h1
    obtain ⟨w, hroot⟩ := Option.isSome_iff_exists.mp (starkRoots.defined (a' + b) (by omega)
      (by show _ ≤ 192; omega))
    have hprim := starkRoots.primitive _ w (by omega) hroot
    obtain ⟨i, hi, h2⟩ := hprim.eq_pow_of_pow_eq_one h1
    refine square_notMem' (by omega) hroot hsq (by show _ < 192; omega) 1 (2 ^ (a' + b) - i) ?_
    rw [← h2, ← pow_add, Nat.sub_add_cancel hi.le, hprim.pow_eq_one, one_pow]
  obtain ⟨d, hd, h5, h6, root0, -, h⟩ := prove_exists_at (env := env) S.rows hab
    (by rw [hta]; show _ ≤ 192; omega) hnew S.length S.blowup S.extended S.offset hcoset S.fits hk hlen hw
    (fun ch => ⟨_, air_polynomial _ _ _ ch⟩)
  refine ⟨d, hd, h5, h6, root0, fun ch hch hmem hrc => ?_⟩
  have hpipm : pi'.publicMemory = pi.publicMemory := by rw [hpi']
  have hpims : pi'.memorySegments = pi.memorySegments := by rw [hpi']
  obtain ⟨exec, rcHoles, lo', hi', holes, last1, last2, k, M⟩ := buildMainTrace_ok hmain
  obtain ⟨-, -, -, -, -, -, -, -, hns, hms⟩ := fromRegsAndMem_regs hpi
  obtain ⟨-, -, hset, h16, -⟩ := main_rows run (by rw [hms]; exact hb) M
  have hl : main.length = _ := congrArg List.length M.rows_eq
  rw [List.length_append, List.length_replicate] at hl
  have hkge := M.k_ge
  obtain ⟨aux, haux⟩ := aux_exists hpi hsize hout hpipm hpims (rows := main) (by omega)
    (fun x hx => lt_of_le_of_lt ((hset x).1 hx).2 h16) _ hmem hrc
  obtain ⟨cs, hcs⟩ := boundary_exists pi' (by
      rw [hpi']; show pi.numSteps ≠ 0; rw [hns]; exact fun h => hne (List.length_eq_zero_iff.1 h))
    (by rw [hpi']; simp) (by rw [hpi']; simp) (n := 2 ^ a') (by positivity) ch
    (fun e he => hmem e (List.mem_append_right _ (hpipm ▸ he)))
  have hcl : cs.length = 8 := by
    unfold boundaryConstraints at hcs
    split at hcs
    · cases hcs
    · simp only [Outcome.bind_eq_ok, Outcome.pure_eq, Outcome.ok.injEq] at hcs
      obtain ⟨_, -, _, -, _, -, rfl⟩ := hcs
      rfl
  have := h ⟨aux.flatten, numberAuxiliaryRapColumns⟩ cs ?_ (hch ▸ hcs) ?_
  · rw [hcl] at this
    exact this
  · rw [← hch]
    show (do
      let aux ← buildAuxiliaryTrace pi' (tableRows (ofRows main (mainWidth pi))) _
      pure (⟨aux.flatten, numberAuxiliaryRapColumns⟩ : TraceTable FE)) = _
    rw [tableRows_ofRows hk hw, haux]
    rfl
  · rw [← hch]
    have := cairo_satisfiesExtended run hpi hsize hzero hpc hsegs hb hout hcov hmain options _ haux
    rwa [hlen] at this

/-- A drawn challenge is rarely a denominator of the auxiliary trace. -/
theorem probability_denominators (hof : ∀ d, randomnessToField 252 d = .ok (env.ofDigest d)) {s a : Nat} (hs3 : 3 ≤ s)
    {cells : List (FE × FE)} {offs : List FE} (hc : cells.length ≤ 8 * 2 ^ a) (ho : offs.length = 3 * 2 ^ a) :
    probability (Fin s → Commitment) (fun ρ =>
      env.ofDigest (ρ ⟨1, by omega⟩) ∈ cells.map (fun e => e.1 + env.ofDigest (ρ ⟨0, by omega⟩) * e.2) ∨
        env.ofDigest (ρ ⟨2, by omega⟩) ∈ offs) ≤ 11 * 2 ^ a / 2 ^ 251 := by
  let dens : FE → List FE := fun α => cells.map fun e => e.1 + α * e.2
  let bad1 : (Fin s → Commitment) → Prop := fun ρ => env.ofDigest (ρ ⟨1, by omega⟩) ∈ dens (env.ofDigest (ρ ⟨0, by omega⟩))
  let bad2 : (Fin s → Commitment) → Prop := fun ρ => env.ofDigest (ρ ⟨2, by omega⟩) ∈ offs
  have hP1 : probability (Fin s → Commitment) bad1 ≤ 8 * 2 ^ a / 2 ^ 251 := by
    refine probability_coordinate ⟨1, by omega⟩ (by positivity) fun l => ?_
    have h0 : ∀ x : Commitment, Function.update l (⟨1, by omega⟩ : Fin s) x ⟨0, by omega⟩ = l ⟨0, by omega⟩ := fun x =>
      Function.update_of_ne (by simp) _ _
    have hd0 : (dens (env.ofDigest (l ⟨0, by omega⟩))).length = cells.length := List.length_map _
    have h1 := probability_challenge hof (dens (env.ofDigest (l ⟨0, by omega⟩)))
    rw [hd0] at h1
    simp only [bad1, Function.update_self, h0]
    refine h1.trans ?_
    refine div_le_div_of_nonneg_right ?_ (by positivity)
    exact_mod_cast hc
  have hP2 : probability (Fin s → Commitment) bad2 ≤ 3 * 2 ^ a / 2 ^ 251 := by
    refine probability_coordinate ⟨2, by omega⟩ (by positivity) fun l => ?_
    have h1 := probability_challenge hof offs
    rw [ho] at h1
    simp only [bad2, Function.update_self]
    refine h1.trans ?_
    refine div_le_div_of_nonneg_right ?_ (by positivity)
    push_cast
    rfl
  have e2 := probability_or bad1 bad2
  have e4 : (11 * 2 ^ a / 2 ^ 251 : ℚ) = 8 * 2 ^ a / 2 ^ 251 + 3 * 2 ^ a / 2 ^ 251 := by ring
  rw [e4]
  exact e2.trans (add_le_add hP1 hP2)

/-- **C81**: for every run of the Cairo machine as in C44, with digests drawn at random, `generate_cairo_proof` returns
a proof and `verify_cairo_proof` accepts it, except with probability at most the sum of

* `11 * 2^a / 2^251`: a challenge is one of the denominators of the auxiliary trace (`2^a` rows with four accesses to
  memory and three offsets each, and at most `4 * 2^a` entries of the public memory),
* `((2^(a+b) + 2^a) / 2^251)^r`: the first `r` candidates for the out-of-domain point are all in the trace domain or
  the extended domain,
* `(1 - 1/2^g)^m`: none of the first `m` nonces meets the target of `g` bits.

The digests before the point are three for the auxiliary trace, two for each of the 8 boundary constraints and two for
each transition constraint. -/
theorem C81_honest_run (hta : env.ta = starkRoots) (hof : ∀ d, randomnessToField 252 d = .ok (env.ofDigest d))
    {mem : CairoMemory} {m : FE → FE}
    {states : List RegistersState} (run : HonestRun mem m states) {size : Nat} {segs : MemorySegmentMap}
    {pi pi' : PublicInputs} (hpi : fromRegsAndMem states mem size segs = .ok pi) (hsize : size < 2 ^ 64)
    (hzero : mem.get? 0 = none) (hpc : ∃ t ∈ states, t.pc ≤ size)
    (hsegs : segs = [] ∨ ∃ r, segs.get? .rangeCheck = some r) (hb : BuiltinValues mem segs)
    (hout : OutputAfterProgram size segs) (hcov : OutputCovered m states size segs)
    {main : List (List FE)} (hmain : buildMainTrace states mem pi = .ok (main, pi'))
    {options : ProofOptions} {a b : Nat} (hlen : main.length = 2 ^ a) (hab : a + b < 64) (hb1 : 1 ≤ b)
    (hbl : options.blowupFactor.toNat = 2 ^ b) (hsq : ¬ IsSquare (options.cosetOffset : FE))
    (hg : options.grindingFactor.toNat ≤ 64) (rest : Nat → Commitment) {s : Nat} (r : Nat) {n : Nat}
    (hs : s = 3 + 2 * 8 + 2 * (if segs = [] then 49 else 50)) (hn : n < 2 ^ 64) :
    1 - (11 * 2 ^ a / 2 ^ 251 + ((2 ^ (a + b) + 2 ^ a) / 2 ^ 251) ^ r
        + (1 - 1 / 2 ^ options.grindingFactor.toNat) ^ n)
      ≤ probability ((Fin s → Commitment) × (Fin r → Commitment) × (Fin n → Commitment)) fun ω =>
          ∃ proof,
            generateCairoProof (answering env rest ω.1 ω.2.1 ω.2.2) ⟨main.flatten, (main.headD []).length⟩ pi' options
              = .ok proof ∧
            verifyCairoProof (answering env rest ω.1 ω.2.1 ω.2.2) proof pi' options = .ok true := by
  have hs3 : 3 ≤ s := by omega
  have hnt : s = (air (2 ^ a) pi' options).numRapChallenges + 2 * 8
      + 2 * (air (2 ^ a) pi' options).context.numTransitionConstraints := by
    obtain ⟨-, -, -, -, -, lo, hi, hpi'⟩ := main_shape hmain
    have hms := (fromRegsAndMem_regs hpi).choose_spec.choose_spec.2.2.2.2.2.2.2
    have hrc : hasRcBuiltin pi' = !segs.isEmpty := by
      unfold hasRcBuiltin
      rw [hpi']
      show (!pi.memorySegments.isEmpty) = _
      rw [hms]
    show s = 3 + 2 * 8 + 2 * numTransitionConstraints (hasRcBuiltin pi')
    rw [hs, hrc]
    cases segs <;> rfl
  have hpub : pi.publicMemory.length ≤ 4 * main.length := by
    obtain ⟨exec, rcHoles, lo', hi', holes, last1, last2, k, M⟩ := buildMainTrace_ok hmain
    have hl : main.length = _ := congrArg List.length M.rows_eq
    rw [List.length_append, List.length_replicate] at hl
    have hkge := M.k_ge
    omega
  obtain ⟨d, hd, hd1, hd2, -⟩ := cairo_prover_at hta run hpi hsize hzero hpc hsegs hb hout hcov hmain hlen hab hb1 hbl
    hsq
  rw [probability_not, sub_le_sub_iff_left]
  -- the three events
  let dens : FE → List FE := fun α => (accesses main ++ pi.publicMemory).map fun e => e.1 + α * e.2
  let offs : List FE := getCols main [OFF_DST, OFF_OP0, OFF_OP1]
  let bad1 : (Fin s → Commitment) → Prop := fun ρ => env.ofDigest (ρ ⟨1, by omega⟩) ∈ dens (env.ofDigest (ρ ⟨0, by omega⟩))
  let bad2 : (Fin s → Commitment) → Prop := fun ρ => env.ofDigest (ρ ⟨2, by omega⟩) ∈ offs
  let bad3 : (Fin r → Commitment) → Prop := fun ζ =>
    ∀ i, env.ofDigest (ζ i) ∈ d.ldeRootsOfUnityCoset ++ d.traceRootsOfUnity
  let bad4 : (Fin n → Commitment) → Prop := fun κ =>
    ∀ i, ¬ 2 ^ options.grindingFactor.toNat ∣ beNat ((κ i).val.take 8)
  have hinc : ∀ ω : (Fin s → Commitment) × (Fin r → Commitment) × (Fin n → Commitment),
      (¬ ∃ proof,
        generateCairoProof (answering env rest ω.1 ω.2.1 ω.2.2) ⟨main.flatten, (main.headD []).length⟩ pi' options
          = .ok proof ∧
        verifyCairoProof (answering env rest ω.1 ω.2.1 ω.2.2) proof pi' options = .ok true) →
      (bad1 ω.1 ∨ bad2 ω.1) ∨ (bad3 ω.2.1 ∨ bad4 ω.2.2) := by
    rintro ⟨ρ, ζ, κ⟩ hfail
    by_contra hgood
    simp only [not_or] at hgood
    obtain ⟨⟨g1, g2⟩, g3, g4⟩ := hgood
    have hta' : (answering env rest ρ ζ κ).ta = starkRoots := hta
    apply hfail
    suffices hp : ∃ proof, generateCairoProof (answering env rest ρ ζ κ)
        ⟨main.flatten, (main.headD []).length⟩ pi' options = .ok proof by
      obtain ⟨proof, hp⟩ := hp
      exact ⟨proof, hp, C44_cairo_honest_proofs_verify hta' run hpi hsize hzero hpc hsegs hb hout hcov hmain hb1 hbl
        hsq hp⟩
    obtain ⟨d', hd', -, -, root0, h⟩ := cairo_prover_at hta' run hpi hsize hzero hpc hsegs hb hout hcov hmain hlen hab
      hb1 hbl hsq
    obtain rfl : d = d' := Outcome.ok.inj (hd.symm.trans hd')
    have hch : (buildRapChallenges (answering env rest ρ ζ κ) (air (2 ^ a) pi' options)
        ((answering env rest ρ ζ κ).tr.append (answering env rest ρ ζ κ).tr.init root0.val)).1
        = ⟨env.ofDigest (ρ ⟨0, by omega⟩), env.ofDigest (ρ ⟨1, by omega⟩), env.ofDigest (ρ ⟨2, by omega⟩)⟩ := by
      unfold buildRapChallenges
      rw [answering_samples]
      have h0 : (answering env rest ρ ζ κ).tr.append (answering env rest ρ ζ κ).tr.init root0.val = 0 := rfl
      have hc : ∀ i (hi : i < s), ((answering env rest ρ ζ κ).tr.challenge i).1 = ρ ⟨i, hi⟩ := fun i hi => by
        show (if h : i < s then ρ ⟨i, h⟩ else _) = _
        rw [dif_pos hi]
      rw [h0]
      show (⟨env.ofDigest ((answering env rest ρ ζ κ).tr.challenge (0 + 0)).1,
        env.ofDigest ((answering env rest ρ ζ κ).tr.challenge (0 + 1)).1,
        env.ofDigest ((answering env rest ρ ζ κ).tr.challenge (0 + 2)).1⟩ : RAPChallenges FE) = _
      rw [hc _ (by omega), hc _ (by omega), hc _ (by omega)]
    obtain ⟨roots, rootH, h⟩ := h _ hch.symm
      (fun e he hc => g1 (List.mem_map.2 ⟨e, he, hc.symm⟩))
      (fun x hx hc => g2 (by show _ ∈ offs; rw [show env.ofDigest (ρ ⟨2, _⟩) = x from hc]; exact hx))
    rw [answering_beforePoint, ← hnt] at h
    obtain ⟨challenge, h⟩ := h (answering_point env rest ρ ζ κ (by
      by_contra hc
      exact g3 fun i => by by_contra hi; exact hc ⟨i, hi⟩))
    exact h (answering_nonce env rest ρ ζ κ hn hg (by
      by_contra hc
      exact g4 fun i hi => hc ⟨i, hi⟩) challenge)
  have hrows : (accesses main ++ pi.publicMemory).length ≤ 8 * 2 ^ a := by
    rw [List.length_append, length_accesses, hlen] at *
    omega
  have hP1 : probability (Fin s → Commitment) (fun ρ => bad1 ρ ∨ bad2 ρ) ≤ 11 * 2 ^ a / 2 ^ 251 :=
    probability_denominators hof hs3 hrows (by rw [← hlen]; exact length_getCols _ _)
  have hP3 : probability (Fin r → Commitment) bad3 ≤ ((2 ^ (a + b) + 2 ^ a) / 2 ^ 251) ^ r := by
    rw [probability_all r fun x => env.ofDigest x ∈ d.ldeRootsOfUnityCoset ++ d.traceRootsOfUnity]
    refine pow_le_pow_left₀ (probability_nonneg _) ((probability_challenge hof _).trans ?_) r
    rw [List.length_append, hd1, hd2]
    push_cast
    rfl
  have hP4 : probability (Fin n → Commitment) bad4 ≤ (1 - 1 / 2 ^ options.grindingFactor.toNat) ^ n := by
    rw [probability_all n fun x : Commitment => ¬ 2 ^ options.grindingFactor.toNat ∣ beNat (x.val.take 8)]
    exact pow_le_pow_left₀ (probability_nonneg _) (probability_target hg) n
  have e1 := probability_fst (Y := (Fin r → Commitment) × (Fin n → Commitment)) fun ρ : Fin s → Commitment =>
    bad1 ρ ∨ bad2 ρ
  have e3 : probability ((Fin s → Commitment) × (Fin r → Commitment) × (Fin n → Commitment))
      (fun ω => bad3 ω.2.1 ∨ bad4 ω.2.2) ≤ ((2 ^ (a + b) + 2 ^ a) / 2 ^ 251) ^ r
        + (1 - 1 / 2 ^ options.grindingFactor.toNat) ^ n := by
    have hpow : (0 : ℚ) ≤ (1 - 1 / 2 ^ options.grindingFactor.toNat) ^ n := (probability_nonneg _).trans hP4
    refine probability_snd (add_nonneg (by positivity) hpow) fun _ => ?_
    refine (probability_or _ _).trans (add_le_add ?_ ?_)
    · exact (probability_fst (Y := Fin n → Commitment) bad3).trans hP3
    · exact probability_snd hpow fun _ => hP4
  refine (probability_mono hinc).trans ((probability_or _ _).trans ?_)
  linarith

/-- **C81** for the commands: for every program that the virtual machine runs honestly, with digests drawn at random,
`prove` writes a file to a writable path and `verify` reports success on that file, except with probability at most
the bound of `C81_honest_run` for the default options (an extension by four and one bit of proof of work). -/
theorem C81_prove_and_verify_commands (hta : env.ta = starkRoots)
    (hof : ∀ d, randomnessToField 252 d = .ok (env.ofDigest d)) {vm : Vm} {w : World}
    {name inp out : String} {args : List String} {program : Bytes}
    (hread : w.read inp = some program) (hwritable : w.writable out = true) {version : CairoVersion}
    {layout : CairoLayout} (has : RunAs inp version layout) {run : VmRun}
    (hvm : vm version layout program = .ok run) {m : FE → FE}
    {states : List RegistersState} (honest : HonestVmRun run m states) (hsize : run.dataLen < 2 ^ 57)
    {tab : TraceTable FE} {pi : PublicInputs}
    (hargs : generateProverArgs vm program version none = .ok (tab, pi))
    {a : Nat} (hlen : tab.nRows = 2 ^ a) (hab : a + 2 < 64) (rest : Nat → Commitment) {s : Nat} (r : Nat) {n : Nat}
    (hs : s = 3 + 2 * 8 + 2 * (if pi.memorySegments = [] then 49 else 50)) (hn : n < 2 ^ 64) :
    1 - (11 * 2 ^ a / 2 ^ 251 + ((2 ^ (a + 2) + 2 ^ a) / 2 ^ 251) ^ r + (1 / 2) ^ n)
      ≤ probability ((Fin s → Commitment) × (Fin r → Commitment) × (Fin n → Commitment)) fun ω =>
          ∃ file,
            Cli.main (answering env rest ω.1 ω.2.1 ω.2.2) vm w (name :: "prove" :: inp :: out :: args)
              = .ok (.wrote out file) ∧
            ∀ (vm' : Vm) (w' : World) (name' : String) (args' : List String), w'.read out = some file →
              Cli.main (answering env rest ω.1 ω.2.1 ω.2.2) vm' w' (name' :: "verify" :: out :: args')
                = .ok (.verdict true) := by
  have has' := has
  obtain ⟨rfl, rfl⟩ := runAs_version has
  obtain ⟨states', mem, size, rc, pi0, main, h1, h2, h3, htab⟩ := generateProverArgs_ok hargs
  obtain ⟨mem', h1', hmem'⟩ := runProgram_ok hvm honest.toMachineRun
  rw [h1] at h1'
  simp only [Outcome.ok.injEq, Prod.mk.injEq] at h1'
  obtain ⟨rfl, rfl, rfl, rfl⟩ := h1'
  obtain ⟨mem0, hmem0, hrun⟩ := honest.run
  obtain ⟨ho, hrcs, hsegs, -, -⟩ := segments_cli (rangeCheckRange run)
  have hspec := rangeCheckRange_spec run
  obtain ⟨-, hw, hhd, -, -, lo, hi, hpi'⟩ := main_shape h3
  have hk : 0 < mainWidth pi0 := by have := mainWidth_ge pi0; omega
  have hnr : main.length = 2 ^ a := by
    rw [← hlen, htab, hhd]; exact (TraceTable.nRows_ofRows main _ hk hw).symm
  have hms := (fromRegsAndMem_regs h2).choose_spec.choose_spec.2.2.2.2.2.2.2
  have hpims : pi.memorySegments = createMemorySegmentMap (rangeCheckRange run) none := by
    rw [← hms, hpi']
  rw [hpims] at hs
  have key := C81_honest_run hta hof
    (HonestRun.same hrun fun a => (hmem' a).trans (hmem0 a).symm)
    h2 honest.size ((hmem' 0).trans honest.zero) honest.pc hsegs
    (by
      intro s e hse n hs he
      rw [hrcs] at hse
      cases hb : run.rangeCheckBuiltin with
      | none => rw [hspec.1 hb] at hse; cases hse
      | some x =>
        obtain ⟨idx, stop⟩ := x
        rw [hspec.2 idx stop hb] at hse
        obtain ⟨rfl, rfl⟩ := Prod.mk.inj (Option.some.inj hse)
        obtain ⟨v, h4, h5⟩ := honest.builtin idx stop hb n hs he
        exact ⟨v, (hmem' n).trans h4, h5⟩)
    (by intro s e h; rw [ho] at h; cases h) (ExecTrace.covered_of_no_output ho) h3
    (options := ProofOptions.defaultTestOptions) (b := 2) hnr hab
    (by norm_num) (by decide) (by exact_mod_cast three_not_square) (by decide) rest r hs hn
  rw [show ProofOptions.defaultTestOptions.grindingFactor.toNat = 1 from rfl] at key
  rw [show (1 / 2 : ℚ) = 1 - 1 / 2 ^ 1 by norm_num]
  refine key.trans (probability_mono ?_)
  rintro ω ⟨proof, hproof, -⟩
  rw [← htab] at hproof
  obtain ⟨-, -, hlayers⟩ := cli_wellformed hargs hvm honest.toMachineRun hproof
  obtain ⟨bs, hbs⟩ := (C01_serialize_total_iff proof).2 hlayers
  have hwrite : ∃ file, writeProofFile proof pi = .ok file := by
    unfold writeProofFile
    rw [hbs]
    exact ⟨_, rfl⟩
  obtain ⟨file, hfile⟩ := hwrite
  have hprove : Cli.main (answering env rest ω.1 ω.2.1 ω.2.2) vm w (name :: "prove" :: inp :: out :: args)
      = .ok (.wrote out file) := by
    simp only [Cli.main, if_true, proveCommand, generateProof, hread, Outcome.okOr, Outcome.bind_ok, hargs,
      hproof, Outcome.unwrapErr, Outcome.pure_eq, hfile, hwritable, finish]
  exact ⟨file, hprove, fun vm' w' name' args' hr =>
    (C59_prove_then_verify (env := answering env rest ω.1 ω.2.1 ω.2.2) hta hread has' hvm honest hsize hprove hr).2⟩

/-- The environment of the examples with the challenges of the program. -/
def envDrawn : Env FE UInt8 := { Examples.envFar with ofDigest := fun d => ((beNat d.val % 2 ^ 251 : Nat) : FE) }

theorem envDrawn_challenges (d : Commitment) : randomnessToField 252 d = .ok (envDrawn.ofDigest d) := by
  obtain ⟨x, hx, hv, -⟩ := C50_no_reduction d
  rw [hx]
  show _ = Outcome.ok ((beNat d.val % 2 ^ 251 : Nat) : FE)
  rw [← hv, ZMod.natCast_zmod_val]

/-- The run of `simple_program` with the default test options (one bit of proof of work), one candidate for the point
and 100 nonces: the proof exists and is accepted with probability at least `1 - 1/2^99`. -/
example (rest : Nat → Commitment) :
    1 - 1 / 2 ^ 99 ≤ probability ((Fin 117 → Commitment) × (Fin 1 → Commitment) × (Fin 100 → Commitment)) fun ω =>
      ∃ proof,
        generateCairoProof (answering envDrawn rest ω.1 ω.2.1 ω.2.2)
          ⟨Examples.main0.1.flatten, (Examples.main0.1.headD []).length⟩ Examples.main0.2 ProofOptions.defaultTestOptions
          = .ok proof ∧
        verifyCairoProof (answering envDrawn rest ω.1 ω.2.1 ω.2.2) proof Examples.main0.2
          ProofOptions.defaultTestOptions = .ok true := by
  have hsq : ¬ IsSquare (ProofOptions.defaultTestOptions.cosetOffset : FE) := by
    exact_mod_cast three_not_square
  have hpc : ∃ t ∈ Examples.states, t.pc ≤ 5 := ⟨⟨1, 8, 8⟩, by decide, by decide⟩
  have hb : BuiltinValues Examples.mem [] := by intro s e h; cases h
  have ho : OutputAfterProgram 5 [] := by intro s e h; cases h
  have hc : OutputCovered Examples.m Examples.states 5 [] := covered_of_no_output rfl
  have hmain : buildMainTrace Examples.states Examples.mem Examples.pi0
      = .ok (Examples.main0.1, Examples.main0.2) := by
    rw [Examples.main0_eq, Prod.mk.eta]
  have := C81_honest_run (env := envDrawn) (a := 3) (b := 2) (main := Examples.main0.1) (pi' := Examples.main0.2)
    (options := ProofOptions.defaultTestOptions) rfl envDrawn_challenges example_run Examples.pi0_eq (by norm_num) (by decide +kernel)
    hpc (.inl rfl) hb ho hc hmain Examples.main0_length (by norm_num) (by norm_num) (by decide) hsq (by decide) rest
    (s := 117) 1 (n := 100) rfl (by norm_num)
  refine le_trans ?_ this
  rw [show ProofOptions.defaultTestOptions.grindingFactor.toNat = 1 from rfl]
  norm_num

/-- The commands on this run: `prove` and `verify` succeed with probability at least `1 - 1/2^99`. -/
example (rest : Nat → Commitment) :
    1 - 1 / 2 ^ 99 ≤ probability ((Fin 117 → Commitment) × (Fin 1 → Commitment) × (Fin 100 → Commitment)) fun ω =>
      ∃ file,
        Cli.main (answering envDrawn rest ω.1 ω.2.1 ω.2.2) Examples.vm0 Examples.world0
          ["prover", "prove", "simple.json", "simple.proof"] = .ok (.wrote "simple.proof" file) ∧
        ∀ (vm' : Vm) (w' : World) (name' : String) (args' : List String), w'.read "simple.proof" = some file →
          Cli.main (answering envDrawn rest ω.1 ω.2.1 ω.2.2) vm' w' (name' :: "verify" :: "simple.proof" :: args')
            = .ok (.verdict true) := by
  have hn : (⟨Verif.Examples.main0.1.flatten, (Verif.Examples.main0.1.headD []).length⟩ :
      TraceTable FE).nRows = 2 ^ 3 := by decide +kernel
  have := C81_prove_and_verify_commands (env := envDrawn) (vm := Examples.vm0) (w := Examples.world0) (name := "prover")
    (args := []) rfl envDrawn_challenges (program := []) (out := "simple.proof") rfl rfl Examples.simple_runAs rfl
    Examples.run0_honest (by decide) Examples.args0 hn (by norm_num) rest (s := 117) 1 (n := 100)
    (by rw [if_pos (by decide +kernel)]) (by norm_num)
  refine le_trans ?_ this
  norm_num

end Verif.Props
