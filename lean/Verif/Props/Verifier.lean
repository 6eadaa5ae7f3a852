import Verif.Lemmas.ForgedProof
import Verif.Lemmas.CairoPoly
import Verif.Model.CairoProof
import Verif.Props.Stark
import Verif.Examples.StarkEnv

/-!
# C45 to C48: what acceptance means
-/

namespace Verif.Props
open Polynomial Verif.Spec
variable {F T Ch : Type} [Field F] [DecidableEq F] {env : Env F T}

/-- The steps of an accepting verifier. -/
theorem verify_true {PI : Type} {new : AirNew F Ch PI} {pi : PI} {options : ProofOptions}
    {proof : StarkProof F} (h : verify env new proof pi options = .ok true) :
    options.friNumberOfQueries ≤ proof.queryList.length ∧
    ∃ air d c t, new proof.traceLength pi options = .ok air ∧ Domain.new env.ta air = .ok d ∧
      step1 env air proof d env.tr.init = .ok (c, t) ∧
      air.context.proofOptions.grindingFactor.toNat ≤ c.leadingZerosCount ∧
      step2 air proof d c = .ok true ∧ step3 env proof d c = .ok true ∧
      step4 env air proof d c = .ok true := by
  unfold verify at h
  split at h
  · cases h
  next hq =>
  simp only [Outcome.bind_eq_ok] at h
  obtain ⟨air, h1, d, h2, ⟨c, t⟩, h3, h⟩ := h
  split at h
  · cases h
  next hg =>
  rw [Outcome.bind_eq_ok] at h
  obtain ⟨b2, h4, h⟩ := h
  cases b2 with
  | false => cases h
  | true =>
  simp only [Bool.not_true, Bool.false_eq_true, if_false] at h
  rw [Outcome.bind_eq_ok] at h
  obtain ⟨b3, h5, h⟩ := h
  cases b3 with
  | false => cases h
  | true =>
  simp only [Bool.not_true, Bool.false_eq_true, if_false] at h
  rw [Outcome.bind_eq_ok] at h
  obtain ⟨b4, h6, h⟩ := h
  cases b4 with
  | false => cases h
  | true => exact ⟨by omega, air, d, c, t, h1, h2, h3, by simpa using hg, h4, h5, h6⟩

/-! ## C45: the documented checks -/

/-- **C45** in part: when the verifier accepts a proof for an AIR in the setting of a run, there are at
least as many queries as configured, the hash of the nonce meets the grinding target, the claimed values at
the out-of-domain point satisfy the identity of the composition polynomial, the answer to every sampled
index is consistent in every layer for which the proof has data, and every opening the proof carries
belongs to a query whose first value is the DEEP value of the opening. Missing: proofs with more queries
than configured are accepted, and also proofs that carry no openings and no layers
(`C45_unused_data_accepted`). -/
theorem C45_accepted_checks_partial {PI : Type} {new : AirNew F Ch PI} {pi : PI} {options : ProofOptions}
    {proof : StarkProof F} {air : Air F Ch} (hair : new proof.traceLength pi options = .ok air)
    {a b : Nat} (S : Setting air a b) (h : verify env new proof pi options = .ok true) :
    ∃ d c t g w, Domain.new env.ta air = .ok d ∧ step1 env air proof d env.tr.init = .ok (c, t) ∧
      env.ta.root a = some g ∧ env.ta.root (a + b) = some w ∧
      options.friNumberOfQueries ≤ proof.queryList.length ∧
      c.iotas.length = air.context.proofOptions.friNumberOfQueries ∧
      (∀ i ∈ c.iotas, i < 2 ^ (a + b)) ∧
      air.context.proofOptions.grindingFactor.toNat ≤ c.leadingZerosCount ∧
      (∃ boundary evals, air.boundaryConstraints c.rapChallenges = .ok boundary ∧
        air.computeTransition proof.traceOodFrameEvaluations c.rapChallenges = .ok evals ∧
        proof.compositionPolyEvenOodEvaluation + c.z * proof.compositionPolyOddOodEvaluation
          = compositionOf air g (fun j => frameCell proof.traceOodFrameEvaluations 0 j) boundary evals
              c.boundaryCoeffs c.transitionCoeffs c.z) ∧
      (∀ (i : Nat) q iota, proof.queryList[i]? = some q → c.iotas[i]? = some iota →
        QueryHolds env proof c.zetas (a + b) iota
          (w ^ iota * (air.context.proofOptions.cosetOffset : F)) q) ∧
      ∀ (i : Nat) iota o, c.iotas[i]? = some iota → proof.deepPolyOpenings[i]? = some o →
        ∃ q, proof.queryList[i]? = some q ∧ OpeningHolds env proof c iota g
          (w ^ iota * (air.context.proofOptions.cosetOffset : F)) o q := by
  obtain ⟨hq, air', d, c, t, h1, h2, h3, hg, h4, h5, h6⟩ := verify_true h
  obtain rfl : air = air' := Outcome.ok.inj (hair.symm.trans h1)
  obtain ⟨g, w, D⟩ := domain_new S.rows S.length S.blowup h2
  obtain ⟨-, -, -, -, hi1, hi2⟩ := step1_inv h3
  rw [D.ldeRootOrder] at hi2
  refine ⟨d, c, t, g, w, h2, h3, D.hg, D.hw, hq, hi1, hi2, hg, step2_true D S.fits S.length h4, ?_, ?_⟩
  · intro i q iota hq hi
    have := (step3_true.mp h5).2.2 i q iota _ hq hi (D.lde_getElem? (hi2 iota (List.mem_of_getElem? hi)))
    rwa [D.ldeRootOrder] at this
  · intro i iota o hi ho
    exact step4_true (by rw [D.rootOrder]; exact getRoot_ok.mpr D.hg) h6 i iota o _ hi ho
      (D.lde_getElem? (hi2 iota (List.mem_of_getElem? hi)))

/-! ## C46: proofs without a trace -/

omit [DecidableEq F] in
/-- The square of a point is not on the coset when the offset is not a square and the domain is smaller
than the largest two-adic subgroup. -/
theorem square_notMem' {ta : TwoAdic F} {m : Nat} (hm : 1 ≤ m) {h w : F} (hw : ta.root m = some w)
    (hsq : ¬ IsSquare h) (hsmall : m < ta.adicity) (z : F) (i : Nat) : w ^ i * h ≠ z ^ 2 := by
  have hw0 : w ≠ 0 := (ta.primitive m w hm hw).ne_zero (by positivity)
  intro hcc
  obtain ⟨v, hv⟩ := Option.isSome_iff_exists.mp (ta.defined (m + 1) (by omega) (by omega))
  have hvw : v ^ 2 = w := ta.square m w v (by omega) hw hv
  have hv0 : v ≠ 0 := by
    rintro rfl
    exact hw0 (by rw [← hvw]; ring)
  refine hsq ⟨z / v ^ i, ?_⟩
  have hvi : v ^ i ≠ 0 := pow_ne_zero _ hv0
  field_simp
  rw [← hcc, ← hvw]
  ring

/-- **C46** refuted: for every AIR, whether or not there are traces that satisfy it, for all commitments, all
claimed out-of-domain values of the trace and one of the two composition halves, and any number of queries
that is at least the configured one, the verifier accepts a proof that carries no FRI layers, no openings
and the value zero for every query; the other half is solved from the out-of-domain identity. It is only
required that the boundary constraints can be computed for the challenges drawn after the commitment, that the
out-of-domain sampling ends and that a nonce exists. -/
theorem C46_forged_proof_accepted {PI : Type} {new : AirNew F Ch PI} {pi : PI}
    {options : ProofOptions} {air : Air F Ch} {a b : Nat} (S : Setting air a b)
    (hab : a + b < 64) (had : a + b < env.ta.adicity)
    (hsq : ¬ IsSquare (air.context.proofOptions.cosetOffset : F))
    (hnew : new (2 ^ a) pi options = .ok air) (hopt : air.context.proofOptions = options)
    (hc : ∀ ch, ∃ cs, PolynomialConstraints air ch cs)
    (root compositionRoot : Commitment)
    (hb : ∃ bcs, air.boundaryConstraints (challengesAfter env air root) = .ok bcs ∧
      ∀ c ∈ bcs, c.col < air.context.traceColumns)
    (hz : SamplingEnds env air)
    (hgrind : ∀ challenge, Grinding.generateNonce env.keccak challenge
      air.context.proofOptions.grindingFactor.toNat ≠ none)
    {rows : List (List F)}
    (hrows : rows.length = air.context.transitionOffsets.length)
    (hr : ∀ r ∈ rows, r.length = air.context.traceColumns) (odd last : F)
    {queries : Nat} (hq : options.friNumberOfQueries ≤ queries) :
    ∃ even nonce, nonce < 2 ^ 64 ∧ verify env new
      { traceLength := 2 ^ a
        ldeTraceMerkleRoots := [root]
        traceOodFrameEvaluations := ⟨rows.flatten, air.context.traceColumns⟩
        compositionPolyRoot := compositionRoot
        compositionPolyEvenOodEvaluation := even
        compositionPolyOddOodEvaluation := odd
        friLayersMerkleRoots := []
        friLastValue := last
        queryList := List.replicate queries ⟨[], [], [], [0]⟩
        deepPolyOpenings := []
        nonce := nonce } pi options = .ok true :=
  forgery_accepted S hab had.le (fun w z hw i => square_notMem' (by have := S.rows; omega) hw hsq had z i)
    hnew hopt hc root compositionRoot hb hz hgrind hrows hr odd last hq

/-! ### Cairo -/

open CairoAir

theorem three_ne_zero_FE : (3 : FE) ≠ 0 := by
  intro h
  have h1 := (ZMod.natCast_eq_zero_iff 3 P).mp (by exact_mod_cast h)
  have h2 := Nat.le_of_dvd (by norm_num) h1
  rw [P_eq] at h2
  norm_num at h2

/-- The coset offset in use is not a square. -/
theorem three_not_square : ¬ IsSquare (3 : FE) := by
  rintro ⟨y, hy⟩
  have hy0 : y ≠ 0 := by
    rintro rfl
    rw [mul_zero] at hy
    exact three_ne_zero_FE hy
  have h1 : y ^ (P - 1) = 1 := ZMod.pow_card_sub_one_eq_one hy0
  refine pow_three_ne_one (e := (P - 1) / 2) (by rw [P_eq]; norm_num) (by decide +kernel) ?_
  show (3 : FE) ^ ((P - 1) / 2) = 1
  rw [hy, ← pow_two, ← pow_mul, show 2 * ((P - 1) / 2) = P - 1 by rw [P_eq]]
  exact h1

theorem product_ne_zero (z alpha : FE) (l : List (FE × FE)) (h : ∀ e ∈ l, z ≠ e.1 + alpha * e.2) (x : FE)
    (hx : x ≠ 0) : l.foldl (fun product e => product * (z - (e.1 + alpha * e.2))) x ≠ 0 := by
  induction l generalizing x with
  | nil => exact hx
  | cons e l ih =>
    rw [List.foldl_cons]
    exact ih (fun e he => h e (by simp [he])) _ (mul_ne_zero hx (sub_ne_zero.mpr (h e (by simp))))

/-- The boundary constraints of the Cairo AIR can be computed. -/
theorem boundary_exists (pi : PublicInputs) (hsteps : pi.numSteps ≠ 0) (hmin : pi.rangeCheckMin ≠ none)
    (hmax : pi.rangeCheckMax ≠ none) {n : Nat} (hn : n ≠ 0) (ch : RAPChallenges FE)
    (hmem : ∀ e ∈ pi.publicMemory, ch.zMemory ≠ e.1 + ch.alphaMemory * e.2) :
    ∃ cs, boundaryConstraints pi n ch = .ok cs := by
  obtain ⟨lo, hlo⟩ := Option.ne_none_iff_exists'.mp hmin
  obtain ⟨hi, hhi⟩ := Option.ne_none_iff_exists'.mp hmax
  unfold boundaryConstraints
  rw [if_neg (by tauto)]
  simp only [inv, if_neg (product_ne_zero ch.zMemory ch.alphaMemory pi.publicMemory hmem 1 one_ne_zero), hlo,
    hhi, Outcome.ofOptionUnwrap, Outcome.bind_ok]
  exact ⟨_, rfl⟩

/-- The setting of a Cairo proof with the default options. -/
theorem cairo_setting {a : Nat} (ha : 1 ≤ a) (pi : PublicInputs) :
    Setting (air (2 ^ a) pi ProofOptions.defaultTestOptions) a 2 :=
    ⟨ha, by norm_num, rfl, rfl, by
      show ((3 : Nat) : FE) ≠ 0
      exact_mod_cast three_ne_zero_FE,
      air_fits (by calc 2 = 2 ^ 1 := rfl
                    _ ≤ 2 ^ a := Nat.pow_le_pow_right (by norm_num) ha) _ _⟩

/-- **C46** refuted for Cairo: with the options the program uses, for every claimed run, of any length,
whose public inputs have a step and bounds for the range check, and for every commitment after which the
challenges drawn are not in the public memory, the verifier accepts a proof assembled without a run. -/
theorem C46_cairo_forged_proof_accepted {env : Env FE T} (pi : PublicInputs) (hsteps : pi.numSteps ≠ 0)
    (hmin : pi.rangeCheckMin ≠ none) (hmax : pi.rangeCheckMax ≠ none) {a : Nat} (ha : 1 ≤ a)
    (hab : a + 2 < 64) (had : a + 2 < env.ta.adicity)
    {root : Commitment} (hmem : ∀ e ∈ pi.publicMemory,
      (challengesAfter env (air (2 ^ a) pi ProofOptions.defaultTestOptions) root).zMemory
        ≠ e.1 + (challengesAfter env (air (2 ^ a) pi ProofOptions.defaultTestOptions) root).alphaMemory * e.2)
    (hz : SamplingEnds env (air (2 ^ a) pi ProofOptions.defaultTestOptions))
    (hgrind : ∀ challenge, Grinding.generateNonce env.keccak challenge 1 ≠ none) :
    ∃ proof, proof.traceLength = 2 ^ a ∧ proof.ldeTraceMerkleRoots = [root] ∧
      proof.friLayersMerkleRoots = [] ∧ proof.deepPolyOpenings = [] ∧
      verifyCairoProof env proof pi ProofOptions.defaultTestOptions = .ok true := by
  have S := cairo_setting ha pi
  have key := C46_forged_proof_accepted (env := env) (new := CairoAir.new) (pi := pi) S hab had three_not_square rfl
    rfl (fun ch => ⟨_, air_polynomial _ _ _ ch⟩) root root (by
      obtain ⟨cs, hcs⟩ := boundary_exists pi hsteps hmin hmax (n := 2 ^ a) (by positivity) _ hmem
      exact ⟨cs, hcs, boundary_columns hcs⟩) hz hgrind
    (rows := List.replicate 2 (List.replicate (traceColumns (hasRcBuiltin pi)) 0)) rfl
    (fun r hr => by rw [(List.mem_replicate.mp hr).2, List.length_replicate]; rfl) 0 0 le_rfl
  obtain ⟨even, nonce, -, h⟩ := key
  exact ⟨_, rfl, rfl, rfl, rfl, h⟩

/-- A claimed run of one step that begins and ends at different instructions. -/
def falseStatement : PublicInputs where
  pcInit := 1
  apInit := 1
  fpInit := 1
  pcFinal := 2
  apFinal := 1
  rangeCheckMin := some 0
  rangeCheckMax := some 0
  memorySegments := []
  publicMemory := []
  numSteps := 1

theorem falseStatement_unsatisfiable (rows : List (List FE)) (width : Nat) (options : ProofOptions)
    (ch : RAPChallenges FE) : ¬ Satisfies (air rows.length falseStatement options) rows width ch := by
  intro hs
  obtain ⟨⟨cs, hcs, hall⟩, -⟩ := hs
  obtain ⟨-, -, lo, hi, -, -, -, rfl⟩ := boundaryConstraints_ok hcs
  obtain ⟨row, h1, h2⟩ := hall ⟨MEM_A_TRACE_OFFSET, 0, falseStatement.pcInit⟩ (by simp)
  obtain ⟨row', h1', h2'⟩ := hall ⟨MEM_A_TRACE_OFFSET, falseStatement.numSteps - 1, falseStatement.pcFinal⟩
    (by simp)
  simp only [falseStatement, Nat.sub_self] at h1 h2 h1' h2'
  rw [h1] at h1'
  obtain rfl := Option.some.inj h1'
  rw [h2] at h2'
  have h3 : (1 : FE) = 2 := Option.some.inj h2'
  have h4 : (1 : FE) = 0 := by linear_combination -h3
  exact one_ne_zero h4

/-- **C46** refuted for Cairo: there are public inputs that no trace satisfies, for any challenges, for
which the verifier accepts a proof. -/
theorem C46_false_statement_accepted :
    ∃ pi : PublicInputs,
      (∀ (rows : List (List FE)) width options ch, ¬ Satisfies (air rows.length pi options) rows width ch) ∧
      ∀ {T : Type} (env : Env FE T) (a : Nat), 1 ≤ a → a + 2 < 64 → env.ta = starkRoots →
        SamplingEnds env (air (2 ^ a) pi ProofOptions.defaultTestOptions) →
        (∀ challenge, Grinding.generateNonce env.keccak challenge 1 ≠ none) →
        ∃ proof, verifyCairoProof env proof pi ProofOptions.defaultTestOptions = .ok true := by
  refine ⟨falseStatement, falseStatement_unsatisfiable, fun env a ha hab hta hz hg => ?_⟩
  · obtain ⟨proof, -, -, -, -, h⟩ := C46_cairo_forged_proof_accepted (env := env) falseStatement (by decide)
      (by decide) (by decide) ha hab (by rw [hta]; show _ < 192; omega) (root := ⟨List.replicate 32 0, List.length_replicate⟩)
      (fun e he => by cases he) hz hg
    exact ⟨proof, h⟩

/-- The hypotheses of the theorems above are met: a proof of the false statement with two rows. -/
example : ∃ proof, verifyCairoProof Examples.envStark proof falseStatement
    ProofOptions.defaultTestOptions = .ok true := by
  obtain ⟨proof, -, -, -, -, h⟩ := C46_cairo_forged_proof_accepted (env := Examples.envStark) falseStatement
    (by decide) (by decide) (by decide) (a := 1) le_rfl (by norm_num) (by show _ < 192; norm_num)
    (root := Examples.digest 0) (fun e he => by cases he)
    (samplingEnds_of (cairo_setting le_rfl falseStatement) fun lde trace t h1 h2 => Examples.sampleZOodStark lde trace t (by rw [h1, h2]; norm_num))
    Examples.generateNonce_stark
  exact ⟨proof, h⟩

open Examples ExampleAirs in
/-- **C45** does not hold in full: a proof with 7 queries is accepted where 2 are configured, although it has
no openings and no FRI layers. -/
theorem C45_unused_data_accepted :
    ∃ (env : Env (ZMod 17) UInt8) (air : Air (ZMod 17) Unit) (options : ProofOptions)
      (proof : StarkProof (ZMod 17)), fibonacci2 proof.traceLength ⟨1, 1⟩ options = .ok air ∧
      Setting air 2 1 ∧ verify env fibonacci2 proof ⟨1, 1⟩ options = .ok true ∧
      options.friNumberOfQueries = 2 ∧ proof.queryList.length = 7 ∧
      proof.friLayersMerkleRoots = [] ∧ proof.deepPolyOpenings = [] := by
  obtain ⟨even, nonce, -, h⟩ := C46_forged_proof_accepted (env := env17) setting17 (by norm_num) (by decide)
    (by
      rw [show ((air17.context.proofOptions.cosetOffset : Nat) : ZMod 17) = 3 from rfl]
      decide +kernel) air17_eq rfl
    (fun ch => ⟨_, fibonacci2_polynomial _ _ _ air17_eq ch⟩)
    (digest 0) (digest 0) ⟨_, rfl, by decide +kernel⟩
    (samplingEnds_of setting17 fun lde trace t h1 h2 => sampleZOod17 0 lde trace t (by rw [h1, h2]; norm_num))
    (fun c => generateNonce_zero _ c) (rows := [[1, 2], [3, 4]]) rfl (by decide) 0 0
    (queries := 7) (by decide)
  exact ⟨env17, air17, options17 3, _, air17_eq, setting17, h, rfl, by simp, rfl, rfl⟩

/-! ## C48: the openings of the trace -/

/-- A proof with other authentication paths for the trace openings. -/
def withTracePaths (proof : StarkProof F) (paths : DeepPolynomialOpenings F → List MerkleProof) :
    StarkProof F :=
  { proof with deepPolyOpenings := proof.deepPolyOpenings.map fun o =>
      { o with ldeTraceMerkleProofs := paths o } }

omit [DecidableEq F] in
theorem reconstructDeep_paths (proof : StarkProof F) (paths) (c : Challenges F Ch) (denomInv : F)
    (divisors : List F) (i : Nat) :
    reconstructDeep (withTracePaths proof paths) c denomInv divisors i
      = reconstructDeep proof c denomInv divisors i := by
  unfold reconstructDeep
  simp only [withTracePaths, index, List.getElem?_map]
  cases h : proof.deepPolyOpenings[i]? with
  | none => rfl
  | some o => rfl

theorem step4_paths (air : Air F Ch) (proof : StarkProof F) (paths) (d : Domain F) (c : Challenges F Ch) :
    step4 env air (withTracePaths proof paths) d c = step4 env air proof d c := by
  unfold step4
  simp only
  congr 1
  funext root
  congr 1
  funext points
  congr 1
  funext denoms
  have hz : (c.iotas.zip (withTracePaths proof paths).deepPolyOpenings).zip denoms
      = ((c.iotas.zip proof.deepPolyOpenings).zip denoms).map
          (fun x => ((x.1.1, { x.1.2 with ldeTraceMerkleProofs := paths x.1.2 }), x.2)) := by
    simp only [withTracePaths, List.zip_map_right, List.zip_map_left]
    simp [List.map_map, Prod.map]
  simp only [hz, List.length_map, List.zip_map_right, List.foldlM_map]
  congr 1
  funext result x
  unfold verifyDeepAt
  simp only [reconstructDeep_paths]
  rfl

/-- **C48** refuted: the verifier's answer does not depend on the authentication paths of the trace openings,
for every proof and all other paths. -/
theorem C48_trace_paths_ignored {PI : Type} (new : AirNew F Ch PI) (pi : PI) (options : ProofOptions)
    (proof : StarkProof F) (paths : DeepPolynomialOpenings F → List MerkleProof) :
    verify env new { proof with deepPolyOpenings := proof.deepPolyOpenings.map fun o =>
      { o with ldeTraceMerkleProofs := paths o } } pi options = verify env new proof pi options := by
  show verify env new (withTracePaths proof paths) pi options = _
  unfold verify
  simp only [step4_paths]
  rfl

/-- Not every path of one element verifies. -/
theorem bad_path17 (root : Commitment) (iota : Nat) (row : List (ZMod 17)) :
    ∃ path, Merkle.verify Examples.env17.hashes.leafBatch Examples.env17.hashes.node path root iota row
      = false := by
  by_contra hcc
  push Not at hcc
  have h0 := hcc ⟨[Examples.digest 0]⟩
  have h1 := hcc ⟨[Examples.digest 1]⟩
  simp only [Bool.not_eq_false, Merkle.verify, decide_eq_true_eq] at h0 h1
  rw [h0] at h1
  simp only [Merkle.climb] at h1
  generalize Examples.env17.hashes.leafBatch row = l at h1
  have hl : ∀ x y : UInt8, Examples.digest x = Examples.digest y → x = y := by
    intro x y h
    have := congrArg (fun d : Commitment => d.val.getLastD 0) h
    simpa [Examples.digest] using this
  split at h1
  · have := hl _ _ h1
    generalize l.val.getLastD 0 = b at this
    revert this
    simp [Examples.digest]
  · have := hl _ _ h1
    generalize l.val.getLastD 0 = b at this
    revert this
    simp [Examples.digest]

open Examples ExampleAirs in
/-- **C48** refuted: an accepted proof with an opening of the trace whose authentication path does not lead to
the root of the trace. -/
theorem C48_wrong_trace_path_accepted :
    ∃ (env : Env (ZMod 17) UInt8) (air : Air (ZMod 17) Unit) (options : ProofOptions)
      (proof : StarkProof (ZMod 17)) (d : Domain (ZMod 17)) (c : Challenges (ZMod 17) Unit) (t : UInt8)
      (iota : Nat) (o : DeepPolynomialOpenings (ZMod 17)) (root : Commitment) (path : MerkleProof),
      fibonacci2 proof.traceLength ⟨1, 1⟩ options = .ok air ∧ Setting air 2 1 ∧
      verify env fibonacci2 proof ⟨1, 1⟩ options = .ok true ∧ Domain.new env.ta air = .ok d ∧
      step1 env air proof d env.tr.init = .ok (c, t) ∧ c.iotas[0]? = some iota ∧
      proof.deepPolyOpenings[0]? = some o ∧ proof.ldeTraceMerkleRoots[0]? = some root ∧
      o.ldeTraceMerkleProofs[0]? = some path ∧
      Merkle.verify env.hashes.leafBatch env.hashes.node path root iota o.ldeTraceEvaluations = false := by
  obtain ⟨proof, hp, hv⟩ := honest17
  obtain ⟨-, air, d, c, t, h1, h2, h3, -⟩ := verify_true hv
  obtain ⟨d', c', t', r1, r2, deep, layers, ps, hd', hs', U⟩ :=
    C49_same_challenges (env := env17) (trace := TraceTable.ofRows rows17 2) (a := 2) (b := 1)
      (air := air17) rfl (by norm_num) rfl rfl hp
  have hair : air = air17 := by
    rw [U.traceLength] at h1
    exact (Outcome.ok.inj (air17_eq.symm.trans h1)).symm
  subst hair
  obtain rfl := Outcome.ok.inj (h2.symm.trans hd')
  obtain ⟨rfl, rfl⟩ := Prod.mk.inj (Outcome.ok.inj (h3.symm.trans hs'))
  obtain ⟨-, -, -, -, hi, -⟩ := step1_inv h3
  have hlen : proof.deepPolyOpenings.length = c.iotas.length := ExecTrace.mapOutcome_length U.openings
  replace hi : c.iotas.length = 2 := hi
  obtain ⟨root, hroot⟩ : ∃ root, proof.ldeTraceMerkleRoots[0]? = some root := by
    unfold step1 at h3
    rw [Outcome.bind_eq_ok] at h3
    obtain ⟨root, hr, -⟩ := h3
    exact ⟨root, index_eq_ok.mp hr⟩
  have hi0 : c.iotas[0]? = some c.iotas[0] := List.getElem?_eq_getElem (by omega)
  have ho0 : proof.deepPolyOpenings[0]? = some proof.deepPolyOpenings[0] :=
    List.getElem?_eq_getElem (by omega)
  obtain ⟨path, hpath⟩ := bad_path17 root c.iotas[0] proof.deepPolyOpenings[0].ldeTraceEvaluations
  refine ⟨env17, air17, options17 3, withTracePaths proof fun _ => [path], d, c, t, c.iotas[0],
    { proof.deepPolyOpenings[0] with ldeTraceMerkleProofs := [path] }, root, path, ?_, setting17, ?_, h2, h3,
    hi0, ?_, hroot, rfl, hpath⟩
  · exact h1
  · exact (C48_trace_paths_ignored _ _ _ _ _).trans hv
  · simp [withTracePaths, ho0]

/-- **C48** in part: the openings of the composition polynomial are authenticated, and the opened values of
the trace enter the DEEP value, which is the first value of the query. Missing: the authentication of the
opened values of the trace (`C48_trace_paths_ignored`). -/
theorem C48_composition_openings_partial {PI : Type} {new : AirNew F Ch PI} {pi : PI} {options : ProofOptions}
    {proof : StarkProof F} {air : Air F Ch} (hair : new proof.traceLength pi options = .ok air)
    {a b : Nat} (S : Setting air a b) (h : verify env new proof pi options = .ok true) :
    ∃ d c t g w, Domain.new env.ta air = .ok d ∧ step1 env air proof d env.tr.init = .ok (c, t) ∧
      env.ta.root a = some g ∧ env.ta.root (a + b) = some w ∧
      ∀ (i : Nat) iota o, c.iotas[i]? = some iota → proof.deepPolyOpenings[i]? = some o →
        Merkle.verify env.hashes.leafBatch env.hashes.node o.ldeCompositionPolyProof
          proof.compositionPolyRoot iota
          [o.ldeCompositionPolyEvenEvaluation, o.ldeCompositionPolyOddEvaluation] = true ∧
        ∃ q, proof.queryList[i]? = some q ∧ q.layersEvaluations[0]? = some (deepValue proof c g
          (w ^ iota * (air.context.proofOptions.cosetOffset : F)) o) := by
  obtain ⟨d, c, t, g, w, h1, h2, h3, h4, -, -, -, -, -, -, h5⟩ := C45_accepted_checks_partial hair S h
  refine ⟨d, c, t, g, w, h1, h2, h3, h4, fun i iota o hi ho => ?_⟩
  obtain ⟨q, hq, hO⟩ := h5 i iota o hi ho
  exact ⟨hO.opened, q, hq, hO.value⟩

open Examples ExampleAirs in
/-- The hypotheses of `C45_accepted_checks_partial` and `C48_composition_openings_partial` are met by an
honest proof, which has openings. -/
example : ∃ proof, fibonacci2 proof.traceLength ⟨1, 1⟩ (options17 3) = .ok air17 ∧ Setting air17 2 1 ∧
    verify env17 fibonacci2 proof ⟨1, 1⟩ (options17 3) = .ok true ∧ proof.deepPolyOpenings.length = 2 := by
  obtain ⟨proof, hp, hv⟩ := honest17
  obtain ⟨d', c', t', r1, r2, deep, layers, ps, hd', hs', U⟩ :=
    C49_same_challenges (env := env17) (trace := TraceTable.ofRows rows17 2) (a := 2) (b := 1)
      (air := air17) rfl (by norm_num) rfl rfl hp
  obtain ⟨-, -, -, -, hi, -⟩ := step1_inv hs'
  have hlen : proof.deepPolyOpenings.length = c'.iotas.length := ExecTrace.mapOutcome_length U.openings
  exact ⟨proof, by rw [U.traceLength]; exact air17_eq, setting17, hv, by rw [hlen, hi]; rfl⟩

/-! ## C47: public inputs and challenges -/

/-- The first step for AIRs that differ in their boundary values, their constraints and their auxiliary
trace. -/
theorem step1_congr {air air' : Air F Ch} {proof : StarkProof F} {d : Domain F} {t : T}
    (hctx : air'.context = air.context) (hnum : air'.numRapChallenges = air.numRapChallenges)
    (hrap : air'.rapChallenges = air.rapChallenges) {r r' : Challenges F Ch × T}
    (hb : ∀ ch bcs bcs', air.boundaryConstraints ch = .ok bcs → air'.boundaryConstraints ch = .ok bcs' →
      bcs'.length = bcs.length)
    (h : step1 env air proof d t = .ok r) (h' : step1 env air' proof d t = .ok r') : r = r' := by
  have hbuild : ∀ t, buildRapChallenges env air' t = buildRapChallenges env air t := by
    intro t
    unfold buildRapChallenges
    rw [hnum, hrap]
  unfold step1 at h h'
  simp only [Outcome.bind_eq_ok, Outcome.pure_eq, hbuild, hctx] at h h'
  obtain ⟨root0, h0, bcs, h1, z, h2, t7, h3, io, h4, h5⟩ := h
  obtain ⟨root0', h0', bcs', h1', z', h2', t7', h3', io', h4', h5'⟩ := h'
  obtain rfl := Outcome.ok.inj (h0.symm.trans h0')
  rw [hb _ _ _ h1 h1'] at h2' h5'
  obtain rfl := Outcome.ok.inj (h2.symm.trans h2')
  obtain rfl := Outcome.ok.inj (h3.symm.trans h3')
  obtain rfl := Outcome.ok.inj (h4.symm.trans h4')
  exact Outcome.ok.inj (h5.symm.trans h5')

open CairoAir in
/-- **C47** refuted for Cairo: for every proof, all challenges the verifier derives are the same for all public
inputs with the same number of builtin columns: whatever the registers, the public memory, the bounds of the
range check and the number of steps are. -/
theorem C47_cairo_challenges_ignore_inputs {env : Env FE T} (pi pi' : PublicInputs) (options : ProofOptions)
    (hrc : hasRcBuiltin pi' = hasRcBuiltin pi) (proof : StarkProof FE) (d : Domain FE) (t : T)
    {r r' : Challenges FE (RAPChallenges FE) × T}
    (h : step1 env (air proof.traceLength pi options) proof d t = .ok r)
    (h' : step1 env (air proof.traceLength pi' options) proof d t = .ok r') : r = r' := by
  refine step1_congr (air := air proof.traceLength pi options) (air' := air proof.traceLength pi' options) ?_ rfl rfl ?_ h h'
  · unfold air
    rw [hrc]
  · intro ch bcs bcs' h1 h2
    obtain ⟨-, -, _, _, -, -, -, rfl⟩ := boundaryConstraints_ok h1
    obtain ⟨-, -, _, _, -, -, -, rfl⟩ := boundaryConstraints_ok h2
    rfl

open CairoAir in
/-- The hypotheses of `C47_cairo_challenges_ignore_inputs` are met, for inputs with different registers. -/
example : ∃ (proof : StarkProof FE) (d : Domain FE) (r r' : _ × UInt8),
    hasRcBuiltin { falseStatement with pcFinal := 7 } = hasRcBuiltin falseStatement ∧
    step1 Examples.envStark (air proof.traceLength falseStatement ProofOptions.defaultTestOptions) proof d 0 = .ok r ∧
    step1 Examples.envStark (air proof.traceLength { falseStatement with pcFinal := 7 }
      ProofOptions.defaultTestOptions) proof d 0 = .ok r' := by
  obtain ⟨d, hd⟩ := domain_exists (ta := Examples.envStark.ta)
    (air := air (2 ^ 1) falseStatement ProofOptions.defaultTestOptions) (a := 1) (b := 2) le_rfl rfl rfl
    (by norm_num) (by show _ ≤ 192; norm_num)
  obtain ⟨g, w, D⟩ := domain_new (a := 1) (b := 2) le_rfl rfl rfl hd
  have key : ∀ pi : PublicInputs, pi.numSteps ≠ 0 → pi.rangeCheckMin ≠ none → pi.rangeCheckMax ≠ none →
      pi.publicMemory = [] → ∃ r, step1 Examples.envStark (air (2 ^ 1) pi ProofOptions.defaultTestOptions)
        (forgery (2 ^ 1) (Examples.digest 0) (Examples.digest 0) ⟨[[0]].flatten, 1⟩ 0 0 0 0 0) d 0 = .ok r := by
    intro pi h1 h2 h3 h4
    obtain ⟨c, t, -, h, -⟩ := step1_exists (env := Examples.envStark)
      (air := air (2 ^ 1) pi ProofOptions.defaultTestOptions)
      (proof := forgery (2 ^ 1) (Examples.digest 0) (Examples.digest 0) ⟨[[0]].flatten, 1⟩ 0 0 0 0 0) (d := d)
      rfl (by rw [D.ldeRootOrder]; exact D.small) (fun t => boundary_exists pi h1 h2 h3 (by norm_num) _ (by rw [h4]; simp))
      (fun t => Examples.sampleZOodStark _ _ t (by rw [D.lde_length, D.traceRoots]; simp))
      (appendFrame_exists (by norm_num) (by simp)) 0
    exact ⟨_, h⟩
  obtain ⟨r, hr⟩ := key falseStatement (by decide) (by decide) (by decide) rfl
  obtain ⟨r', hr'⟩ := key { falseStatement with pcFinal := 7 } (by decide) (by decide) (by decide) rfl
  exact ⟨_, d, r, r', rfl, hr, hr'⟩

open ExampleAirs in
/-- **C47** refuted: for the Fibonacci AIR, the challenges are the same for all public inputs. -/
theorem C47_fibonacci_challenges_ignore_inputs (pi pi' : FibonacciPublicInputs F) (n : Nat)
    (options : ProofOptions) (proof : StarkProof F) (d : Domain F) (t : T) {air air' : Air F Unit}
    (h : fibonacci n pi options = .ok air) (h' : fibonacci n pi' options = .ok air') :
    step1 env air proof d t = step1 env air' proof d t := by
  obtain rfl := Outcome.ok.inj h
  obtain rfl := Outcome.ok.inj h'
  rfl

/-- The value of the boundary part for the two constraints of the Fibonacci AIR. -/
theorem oodBoundary_two {proof : StarkProof F} {d : Domain F} {z a0 a1 q : F} {coeffs : List (F × F)}
    {adj : Nat} (h : oodBoundary proof [⟨0, 0, a0⟩, ⟨0, 1, a1⟩] d z coeffs adj = .ok q) {k0 k1 : F × F}
    (hc : coeffs = [k0, k1]) :
    z - d.tracePrimitiveRoot ^ 1 ≠ 0 ∧ ∀ a0' a1' : F, (a0' - a0) * (z - d.tracePrimitiveRoot ^ 0)⁻¹ * (k0.1 * z ^ adj + k0.2)
      + (a1' - a1) * (z - d.tracePrimitiveRoot ^ 1)⁻¹ * (k1.1 * z ^ adj + k1.2) = 0 →
    oodBoundary proof [⟨0, 0, a0'⟩, ⟨0, 1, a1'⟩] d z coeffs adj = .ok q := by
  subst hc
  unfold oodBoundary at h ⊢
  simp only [mapOutcome] at h ⊢
  cases hrow : proof.traceOodFrameEvaluations.getRow 0 with
  | panic => rw [hrow] at h; cases h
  | err e => cases e
  | ok row =>
  rw [hrow] at h
  simp only [Outcome.bind_ok] at h ⊢
  cases hv : (index row 0 : Outcome Empty F) with
  | panic => rw [hv] at h; cases h
  | err e => cases e
  | ok v =>
  rw [hv] at h
  simp only [Outcome.bind_ok, Outcome.pure_eq, List.map_cons, List.map_nil] at h ⊢
  rw [Outcome.bind_eq_ok] at h
  obtain ⟨inv, hinv, h⟩ := h
  obtain ⟨hne, rfl⟩ := batchInverse_eq_ok.mp hinv
  refine ⟨hne _ (by simp), fun a0' a1' heq => ?_⟩
  rw [hinv, Outcome.bind_ok]
  rw [← h]
  simp only [List.map_cons, List.map_nil, List.zip_cons_cons, List.zip_nil_left, List.foldl_cons, List.foldl_nil,
    Outcome.ok.injEq]
  linear_combination -heq

open ExampleAirs in
/-- **C47** refuted: a proof the verifier accepts for the public inputs `a0`, `a1` of the Fibonacci AIR can be
reused: for every other `a0'` there is an `a1'` for which the same proof is accepted, unless the challenge
that multiplies the second boundary constraint vanishes. -/
theorem C47_proof_transfers {a0 a1 : F} {options : ProofOptions} {proof : StarkProof F}
    (h : verify env fibonacci proof ⟨a0, a1⟩ options = .ok true)
    (hk : ∀ air d c t, fibonacci proof.traceLength ⟨a0, a1⟩ options = .ok air → Domain.new env.ta air = .ok d →
      step1 env air proof d env.tr.init = .ok (c, t) → ∀ k, c.boundaryCoeffs[1]? = some k → k.1 + k.2 ≠ 0)
    (a0' : F) : ∃ a1', verify env fibonacci proof ⟨a0', a1'⟩ options = .ok true := by
  obtain ⟨hq, air, d, c, t, h1, h2, h3, hg, h4, h5, h6⟩ := verify_true h
  have hk := hk air d c t h1 h2 h3
  obtain rfl := Outcome.ok.inj h1
  have hlen : c.boundaryCoeffs.length = 2 := by
    unfold step1 at h3
    simp only [Outcome.bind_eq_ok, Outcome.pure_eq, Outcome.ok.injEq, Prod.mk.injEq] at h3
    obtain ⟨-, -, bcs, hb, -, -, -, -, -, -, rfl, -⟩ := h3
    subst hb
    simp [samples_length]
  obtain ⟨k0, k1, hcoeffs⟩ := List.length_eq_two.mp hlen
  have hk1 := hk k1 (by rw [hcoeffs]; rfl)
  have hstep2 := h4
  unfold step2 at h4
  rw [Outcome.bind_eq_ok] at h4
  obtain ⟨bcs, hb, h4⟩ := h4
  obtain rfl := Outcome.ok.inj hb
  simp only [checkedSub, le_refl, if_true, Outcome.bind_ok, Nat.sub_self] at h4
  rw [Outcome.bind_eq_ok] at h4
  obtain ⟨q, hood, h4⟩ := h4
  refine ⟨a1 - (a0' - a0) * (c.z - d.tracePrimitiveRoot ^ 0)⁻¹ * (k0.1 + k0.2) * (k1.1 + k1.2)⁻¹
    * (c.z - d.tracePrimitiveRoot ^ 1), ?_⟩
  generalize ha1 : a1 - (a0' - a0) * (c.z - d.tracePrimitiveRoot ^ 0)⁻¹ * (k0.1 + k0.2) * (k1.1 + k1.2)⁻¹
    * (c.z - d.tracePrimitiveRoot ^ 1) = a1'
  obtain ⟨hz, hood'⟩ := oodBoundary_two hood hcoeffs
  replace hood' := hood' a0' a1' (by
    rw [← ha1]
    generalize (c.z - d.tracePrimitiveRoot ^ 0)⁻¹ = i0
    generalize c.z - d.tracePrimitiveRoot ^ 1 = z1 at hz
    simp only [pow_zero, mul_one]
    field_simp
    ring)
  refine (verify_of_steps (new := fibonacci) (pi := ⟨a0', a1'⟩) (options := options)
    (air := Examples.getOk (fibonacci proof.traceLength ⟨a0', a1'⟩ options) rfl) h2 rfl rfl h3
    hg hq ?_ h5).trans h6
  · unfold step2
    simp only [Examples.getOk, fibonacci, Outcome.bind_ok, checkedSub, le_refl, if_true, Nat.sub_self]
    rw [hood', Outcome.bind_ok]
    exact h4

/-- The AIR of the Fibonacci sequence in one column. -/
def airFib17 : Air (ZMod 17) Unit := Examples.getOk (ExampleAirs.fibonacci (2 ^ 2) ⟨1, 1⟩ (options17 3)) rfl

open Examples ExampleAirs in
/-- **C47** refuted: one proof is accepted for the public inputs 1, 1 and for inputs that begin with 2. -/
theorem C47_same_proof_two_statements :
    ∃ (env : Env (ZMod 17) UInt8) (options : ProofOptions) (proof : StarkProof (ZMod 17)) (a1' : ZMod 17),
      verify env fibonacci proof ⟨1, 1⟩ options = .ok true ∧
      verify env fibonacci proof ⟨2, a1'⟩ options = .ok true := by
  have S : Setting airFib17 2 1 :=
    ⟨by norm_num, le_rfl, rfl, rfl, by decide +kernel, fibonacci_fits (by norm_num) _ _ rfl⟩
  obtain ⟨even, nonce, -, h⟩ := C46_forged_proof_accepted (env := env17) (air := airFib17) (a := 2) (b := 1) S
    (by norm_num)
    (by decide)
    (by
      rw [show ((airFib17.context.proofOptions.cosetOffset : Nat) : ZMod 17) = 3 from rfl]
      decide +kernel) (new := fibonacci) rfl rfl
    (fun ch => ⟨_, fibonacci_polynomial _ _ _ rfl ch⟩)
    (digest 0) (digest 0) ⟨_, rfl, by decide +kernel⟩
    (samplingEnds_of S fun lde trace t h1 h2 => sampleZOod17 0 lde trace t (by rw [h1, h2]; norm_num))
    (fun c => generateNonce_zero _ c) (rows := [[1], [3], [4]]) rfl (by decide) 0 0
    (queries := 2) (by decide)
  obtain ⟨a1', h'⟩ := C47_proof_transfers h (by
    intro air d c t h1 _ h3
    obtain rfl := Outcome.ok.inj h1
    unfold step1 at h3
    simp only [Outcome.bind_eq_ok, Outcome.pure_eq, Outcome.ok.injEq, Prod.mk.injEq] at h3
    obtain ⟨-, -, bcs, hb, -, -, -, -, -, -, rfl, -⟩ := h3
    subst hb
    intro k hk
    have : k = (1, 3) := (Option.some.inj hk).symm
    subst this
    decide +kernel) 2
  exact ⟨env17, _, _, a1', h, h'⟩

end Verif.Props
