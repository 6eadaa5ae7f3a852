import Verif.Model.Prover

/-!
# The verifier

Models `src/starks/verifier.rs`. Logging and the timing output (`instruments`) are not modelled.
-/

namespace Verif
noncomputable section
open Polynomial
variable {F T Ch : Type} [Field F] [DecidableEq F]

/-- `Challenges` (src/starks/verifier.rs:42-57). -/
structure Challenges (F Ch : Type) where
  z : F
  boundaryCoeffs : List (F × F)
  transitionCoeffs : List (F × F)
  traceTermCoeffs : List (List F)
  gammaEven : F
  gammaOdd : F
  zetas : List F
  iotas : List Nat
  rapChallenges : Ch
  leadingZerosCount : Nat

/-- The trace term coefficients (src/starks/verifier.rs:150-156): `columns` rows of `offsets`
challenges. -/
def sampleRows (env : Env F T) (offsets : Nat) : Nat → T → List (List F) × T
  | 0, t => ([], t)
  | k + 1, t =>
    let row := env.samples offsets t
    let r := sampleRows env offsets k row.2
    (row.1 :: r.1, r.2)

/-- The challenges after every FRI root (src/starks/verifier.rs:160-170). -/
def sampleZetas (env : Env F T) : List Commitment → T → List F × T
  | [], t => ([], t)
  | root :: rest, t =>
    let x := env.sample (env.tr.append t root.val)
    let r := sampleZetas env rest x.2
    (x.1 :: r.1, r.2)

/-- Appending the rows of the out-of-domain frame (src/starks/verifier.rs:130-134). -/
def appendFrame (env : Env F T) (frame : Frame F) (t : T) : Outcome Empty T := do
  let rows ← frame.numRows
  (List.range rows).foldlM (fun t i => do
    let row ← frame.getRow i
    return row.foldl env.appendField t) t

/-- `2_usize.pow(domain.lde_root_order)` (src/starks/verifier.rs:189). The order 64, of an empty domain, overflows: a
panic in debug builds; in release builds the result is zero and `% 0` panics. -/
def iotaMax (order : Nat) : Nat := 2 ^ order % 2 ^ 64

/-- `step_1_replay_rounds_and_recover_challenges` (src/starks/verifier.rs:59-206). The sampling of the
out-of-domain point not ending is modelled as a panic (there is no result). -/
def step1 (env : Env F T) (air : Air F Ch) (proof : StarkProof F) (domain : Domain F) (t : T) :
    Outcome Empty (Challenges F Ch × T) := do
  let root0 ← index proof.ldeTraceMerkleRoots 0
  let t := env.tr.append t root0.val
  let rap := buildRapChallenges env air t
  let t := match proof.ldeTraceMerkleRoots[1]? with
    | some root => env.tr.append rap.2 root.val
    | none => rap.2
  let boundary ← air.boundaryConstraints rap.1
  let alphasB := env.samples boundary.length t
  let betasB := env.samples boundary.length alphasB.2
  let alphasT := env.samples air.context.numTransitionConstraints betasB.2
  let betasT := env.samples air.context.numTransitionConstraints alphasT.2
  let t := env.tr.append betasT.2 proof.compositionPolyRoot.val
  let z ← Outcome.ofOptionUnwrap (env.tr.sampleZOod env.ofDigest domain.ldeRootsOfUnityCoset
    domain.traceRootsOfUnity t)
  let t := env.appendField z.2 proof.compositionPolyEvenOodEvaluation
  let t := env.appendField t proof.compositionPolyOddOodEvaluation
  let t ← appendFrame env proof.traceOodFrameEvaluations t
  let gammaEven := env.sample t
  let gammaOdd := env.sample gammaEven.2
  let rows := sampleRows env air.context.transitionOffsets.length air.context.traceColumns gammaOdd.2
  let zetas := sampleZetas env proof.friLayersMerkleRoots rows.2
  let t := env.appendField zetas.2 proof.friLastValue
  let challenge := env.tr.challenge t
  let zeros := Grinding.leadingZerosOf env.keccak challenge.1 proof.nonce
  let t := env.tr.append challenge.2 (beBytes 8 proof.nonce)
  let iotas ← Fri.sampleIndices env (iotaMax domain.ldeRootOrder)
    air.context.proofOptions.friNumberOfQueries t
  return (⟨z.1, alphasB.1.zip betasB.1, alphasT.1.zip betasT.1, rows.1, gammaEven.1, gammaOdd.1,
    zetas.1, iotas.1, rap.1, zeros⟩, iotas.2)

/-- The boundary quotients at the out-of-domain point (src/starks/verifier.rs:230-263). -/
def oodBoundary (proof : StarkProof F) (boundary : List (BoundaryConstraint F)) (domain : Domain F)
    (z : F) (coeffs : List (F × F)) (adjustment : Nat) : Outcome Empty F := do
  let pairs ← mapOutcome (fun c : BoundaryConstraint F => do
    let row ← proof.traceOodFrameEvaluations.getRow 0
    let v ← index row c.col
    return (v - c.value, z - domain.tracePrimitiveRoot ^ c.step)) boundary
  let dens ← batchInverse (pairs.map (·.2))
  let degree := z ^ adjustment
  return ((((pairs.map (·.1)).zip dens).zip coeffs).map
    fun x => x.1.1 * x.1.2 * (x.2.1 * degree + x.2.2)).foldl (· + ·) 0

/-- The transition quotients at the out-of-domain point (src/starks/verifier.rs:265-309). -/
def oodTransition (air : Air F Ch) (evaluations : List F) (denominator : F) (exemption : List F)
    (degreeAdjustments : List F) (coeffs : List (F × F)) : Outcome Empty F :=
  (((evaluations.zip air.context.transitionDegrees).zip air.context.transitionExemptions).zip
    coeffs).foldlM (fun acc x => do
      let eval := x.1.1.1
      let degree := x.1.1.2
      let except := x.1.2
      let e ← if except = 0 then .ok 1 else index exemption (except - 1)
      let d1 ← checkedSub degree 1
      let adj ← index degreeAdjustments d1
      return acc + denominator * eval * (x.2.1 * adj + x.2.2) * e) 0

/-- `step_2_verify_claimed_composition_polynomial` (src/starks/verifier.rs:208-317). -/
def step2 (air : Air F Ch) (proof : StarkProof F) (domain : Domain F) (c : Challenges F Ch) :
    Outcome Empty Bool := do
  let boundary ← air.boundaryConstraints c.rapChallenges
  let n := air.traceLength
  let bound := air.compositionPolyDegreeBound
  let boundaryAdjustment ← checkedSub bound n
  let boundaryQuotient ← oodBoundary proof boundary domain c.z c.boundaryCoeffs boundaryAdjustment
  let evaluations ← air.computeTransition proof.traceOodFrameEvaluations c.rapChallenges
  let denominator ← invOrPanic (c.z ^ n - 1)
  let last ← Outcome.ofOptionUnwrap domain.traceRootsOfUnity.getLast?
  let exemptions ← transitionExemptionsVerifier air last
  let exemption := exemptions.map (·.eval c.z)
  let maxDegree ← Outcome.ofOptionUnwrap air.context.transitionDegrees.max?
  let degreeAdjustments ← mapOutcome (fun k => do
    let adjustment ← checkedSub bound (n * k)
    return c.z ^ adjustment) (List.range maxDegree)
  let transition ← oodTransition air evaluations denominator exemption degreeAdjustments
    c.transitionCoeffs
  return decide (proof.compositionPolyEvenOodEvaluation
    + c.z * proof.compositionPolyOddOodEvaluation = boundaryQuotient + transition)

/-- One layer of a query answer: root, authentication path and value, symmetric path and value and the
inverse of the evaluation point, with the layer's index
(the items zipped in src/starks/verifier.rs:480-488). -/
abbrev LayerItem (F : Type) :=
  (((((Nat × Commitment) × MerkleProof) × F) × MerkleProof) × F) × F

/-- The items of a query (src/starks/verifier.rs:456-463, 480-488). -/
def layerItems (proof : StarkProof F) (d : FriDecommitment F) (pointInv : F) : List (LayerItem F) :=
  let roots := proof.friLayersMerkleRoots
  let points := (List.range roots.length).map fun k => pointInv ^ (2 ^ k)
  ((((((List.range roots.length).zip roots).zip d.layersAuthPaths).zip d.layersEvaluations).zip
    d.layersAuthPathsSym).zip d.layersEvaluationsSym).zip points

/-- One iteration of the fold over the layers (src/starks/verifier.rs:489-521): the accumulated result
and the value `v`. -/
def verifyLayer (env : Env F T) (proof : StarkProof F) (zetas : List F) (iota : Nat)
    (d : FriDecommitment F) (domain : Domain F) (twoInv : F) (acc : Bool × F) (item : LayerItem F) :
    Outcome Empty (Bool × F) := do
  let k := item.1.1.1.1.1.1
  let root := item.1.1.1.1.1.2
  let path := item.1.1.1.1.2
  let evaluation := item.1.1.1.2
  let pathSym := item.1.1.2
  let evaluationSym := item.1.2
  let pointInv := item.2
  -- `domain.lde_root_order - k as u32`
  let e ← checkedSub domain.ldeRootOrder k
  let len := 2 ^ e
  let indexSym := (iota + len / 2) % len
  let authSym := Merkle.verify env.hashes.leaf env.hashes.node pathSym root indexSym evaluationSym
  let authPoint := Merkle.verify env.hashes.leaf env.hashes.node path root iota evaluation
  let beta ← index zetas k
  let v := (acc.2 + evaluationSym) * twoInv + beta * (acc.2 - evaluationSym) * twoInv * pointInv
  let lastIndex ← checkedSub d.layersEvaluations.length 1
  if k < lastIndex then do
    let next ← index d.layersEvaluations (k + 1)
    return (acc.1 && decide (v = next) && authPoint && authSym, v)
  else
    return (acc.1 && decide (v = proof.friLastValue) && authPoint && authSym, v)

/-- `verify_query_and_sym_openings` (src/starks/verifier.rs:443-523). -/
def verifyQuery (env : Env F T) (proof : StarkProof F) (zetas : List F) (iota : Nat)
    (d : FriDecommitment F) (domain : Domain F) (pointInv twoInv : F) : Outcome Empty Bool := do
  let v ← index d.layersEvaluations 0
  let r ← (layerItems proof d pointInv).foldlM
    (verifyLayer env proof zetas iota d domain twoInv) (true, v)
  return r.1

/-- `step_3_verify_fri` (src/starks/verifier.rs:319-356). -/
def step3 (env : Env F T) (proof : StarkProof F) (domain : Domain F) (c : Challenges F Ch) :
    Outcome Empty Bool := do
  let twoInv ← invOrPanic (2 : F)
  let points ← mapOutcome (fun iota => index domain.ldeRootsOfUnityCoset iota) c.iotas
  let inverses ← batchInverse points
  ((proof.queryList.zip c.iotas).zip inverses).foldlM (fun result x => do
    let ok ← verifyQuery env proof c.zetas x.1.2 x.1.1 domain x.2 twoInv
    return result && ok) true

/-- `reconstruct_deep_composition_poly_evaluation` (src/starks/verifier.rs:526-557). -/
def reconstructDeep (proof : StarkProof F) (c : Challenges F Ch) (denomInv : F) (divisors : List F)
    (i : Nat) : Outcome Empty F := do
  let opening ← index proof.deepPolyOpenings i
  let frame := proof.traceOodFrameEvaluations
  let traceTerm ← ((List.range frame.rowWidth).zip c.traceTermCoeffs).foldlM (fun acc x => do
    let rows ← frame.numRows
    let v ← ((List.range rows).zip x.2).foldlM (fun acc y => do
      let t ← index opening.ldeTraceEvaluations x.1
      let row ← frame.getRow y.1
      let o ← index row x.1
      let d ← index divisors y.1
      return acc + (t - o) * d * y.2) 0
    return acc + v) 0
  let h1 := (opening.ldeCompositionPolyEvenEvaluation - proof.compositionPolyEvenOodEvaluation)
    * denomInv
  let h2 := (opening.ldeCompositionPolyOddEvaluation - proof.compositionPolyOddOodEvaluation)
    * denomInv
  return traceTerm + h1 * c.gammaEven + h2 * c.gammaOdd

/-- One iteration of the fold of step 4 (src/starks/verifier.rs:382-440). The result of the fold that
verifies the trace openings (lines 411-423) is not used by the code; that fold cannot panic. -/
def verifyDeepAt (env : Env F T) (air : Air F Ch) (proof : StarkProof F) (domain : Domain F)
    (c : Challenges F Ch) (root : F) (result : Bool)
    (x : Nat × ((Nat × DeepPolynomialOpenings F) × F)) : Outcome Empty Bool := do
  let i := x.1
  let iota := x.2.1.1
  let opening := x.2.1.2
  let denomInv := x.2.2
  let result := result && Merkle.verify env.hashes.leafBatch env.hashes.node
    opening.ldeCompositionPolyProof proof.compositionPolyRoot iota
    [opening.ldeCompositionPolyEvenEvaluation, opening.ldeCompositionPolyOddEvaluation]
  let mainColumns ← checkedSub air.context.traceColumns air.numberAuxiliaryRapColumns
  let _main ← subslice opening.ldeTraceEvaluations 0 mainColumns
  let rows ← proof.traceOodFrameEvaluations.numRows
  let points ← mapOutcome (fun row => do
    let v ← index domain.ldeRootsOfUnityCoset iota
    return v - c.z * root ^ row) (List.range rows)
  let divisors ← batchInverse points
  let deep ← reconstructDeep proof c denomInv divisors i
  let query ← index proof.queryList i
  let claimed ← index query.layersEvaluations 0
  return result && decide (claimed = deep)

/-- `step_4_verify_deep_composition_polynomial` (src/starks/verifier.rs:358-441). -/
def step4 (env : Env F T) (air : Air F Ch) (proof : StarkProof F) (domain : Domain F)
    (c : Challenges F Ch) : Outcome Empty Bool := do
  let root ← env.ta.getRoot domain.rootOrder
  let z2 := c.z ^ 2
  let points ← mapOutcome (fun iota => do
    let v ← index domain.ldeRootsOfUnityCoset iota
    return v - z2) c.iotas
  let denoms ← batchInverse points
  let items := (c.iotas.zip proof.deepPolyOpenings).zip denoms
  ((List.range items.length).zip items).foldlM (verifyDeepAt env air proof domain c root) true

/-- `verify` (src/starks/verifier.rs:559-657). -/
def verify {PI : Type} (env : Env F T) (new : AirNew F Ch PI) (proof : StarkProof F) (pubInput : PI)
    (options : ProofOptions) : Outcome Empty Bool := do
  if proof.queryList.length < options.friNumberOfQueries then return false
  else
    let air ← new proof.traceLength pubInput options
    let domain ← Domain.new env.ta air
    let c ← step1 env air proof domain env.tr.init
    if c.1.leadingZerosCount < air.context.proofOptions.grindingFactor.toNat then return false
    else
      let ok2 ← step2 air proof domain c.1
      if !ok2 then return false
      else
        let ok3 ← step3 env proof domain c.1
        if !ok3 then return false
        else
          let ok4 ← step4 env air proof domain c.1
          if !ok4 then return false
          else return true

end
end Verif
