import Verif.Model.CairoProof

/-!
# The verifier in release and in debug builds

`verify` (Verif/Model/Verifier.lean) treats a subtraction that underflows as a panic and has no `debug_assert!`s.
Release builds wrap around instead, and debug builds have the assertions of `CairoAIR::new`. Both are modelled here.
Only what differs is repeated. Not repeated are the products `trace_length * blowup_factor` and `2 * trace_length`:
they overflow only for trace lengths of at least `2^56`, for which `Domain::new` cannot allocate the list of the roots
of unity it has made before.
-/

namespace Verif
noncomputable section
open Polynomial
variable {F T Ch : Type} [Field F] [DecidableEq F]

/-- `a - b` on `usize` in release builds (Rust core): modulo `2^64`.
Used at src/starks/verifier.rs:305. -/
def wrappingSub (a b : Nat) : Nat := (a + 2 ^ 64 - b) % 2 ^ 64

/-- `1 << (order - k as u32)` in release builds (src/starks/verifier.rs:492): the subtraction on `u32` is modulo
`2^32` and the shift uses the low six bits of its result (Rust core). -/
def layerLength (order k : Nat) : Nat := 2 ^ ((order + 2 ^ 32 - k % 2 ^ 32) % 2 ^ 32 % 64)

/-- The transition quotients at the out-of-domain point (src/starks/verifier.rs:265-309) in release builds. -/
def oodTransitionRelease (air : Air F Ch) (evaluations : List F) (denominator : F) (exemption : List F)
    (degreeAdjustments : List F) (coeffs : List (F × F)) : Outcome Empty F :=
  (((evaluations.zip air.context.transitionDegrees).zip air.context.transitionExemptions).zip
    coeffs).foldlM (fun acc x => do
      let e ← if x.1.2 = 0 then .ok 1 else index exemption (x.1.2 - 1)
      let adj ← index degreeAdjustments (wrappingSub x.1.1.2 1)
      return acc + denominator * x.1.1.1 * (x.2.1 * adj + x.2.2) * e) 0

/-- `step_2_verify_claimed_composition_polynomial` (src/starks/verifier.rs:208-317) in release builds. -/
def step2Release (air : Air F Ch) (proof : StarkProof F) (domain : Domain F) (c : Challenges F Ch) :
    Outcome Empty Bool := do
  let boundary ← air.boundaryConstraints c.rapChallenges
  let n := air.traceLength
  let bound := air.compositionPolyDegreeBound
  let boundaryQuotient ← oodBoundary proof boundary domain c.z c.boundaryCoeffs (wrappingSub bound n)
  let evaluations ← air.computeTransition proof.traceOodFrameEvaluations c.rapChallenges
  let denominator ← invOrPanic (c.z ^ n - 1)
  let last ← Outcome.ofOptionUnwrap domain.traceRootsOfUnity.getLast?
  let exemptions ← transitionExemptionsVerifier air last
  let exemption := exemptions.map (·.eval c.z)
  let maxDegree ← Outcome.ofOptionUnwrap air.context.transitionDegrees.max?
  let degreeAdjustments := (List.range maxDegree).map fun k => c.z ^ wrappingSub bound (n * k)
  let transition ← oodTransitionRelease air evaluations denominator exemption degreeAdjustments
    c.transitionCoeffs
  return decide (proof.compositionPolyEvenOodEvaluation
    + c.z * proof.compositionPolyOddOodEvaluation = boundaryQuotient + transition)

/-- One iteration of the fold over the layers (src/starks/verifier.rs:489-521) in release builds. -/
def verifyLayerRelease (env : Env F T) (proof : StarkProof F) (zetas : List F) (iota : Nat)
    (d : FriDecommitment F) (domain : Domain F) (twoInv : F) (acc : Bool × F) (item : LayerItem F) :
    Outcome Empty (Bool × F) := do
  let k := item.1.1.1.1.1.1
  let root := item.1.1.1.1.1.2
  let path := item.1.1.1.1.2
  let evaluation := item.1.1.1.2
  let pathSym := item.1.1.2
  let evaluationSym := item.1.2
  let pointInv := item.2
  let len := layerLength domain.ldeRootOrder k
  let indexSym := (iota + len / 2) % len
  let authSym := Merkle.verify env.hashes.leaf env.hashes.node pathSym root indexSym evaluationSym
  let authPoint := Merkle.verify env.hashes.leaf env.hashes.node path root iota evaluation
  let beta ← index zetas k
  let v := (acc.2 + evaluationSym) * twoInv + beta * (acc.2 - evaluationSym) * twoInv * pointInv
  if k < wrappingSub d.layersEvaluations.length 1 then do
    let next ← index d.layersEvaluations (k + 1)
    return (acc.1 && decide (v = next) && authPoint && authSym, v)
  else
    return (acc.1 && decide (v = proof.friLastValue) && authPoint && authSym, v)

/-- `verify_query_and_sym_openings` (src/starks/verifier.rs:443-523) in release builds. -/
def verifyQueryRelease (env : Env F T) (proof : StarkProof F) (zetas : List F) (iota : Nat)
    (d : FriDecommitment F) (domain : Domain F) (pointInv twoInv : F) : Outcome Empty Bool := do
  let v ← index d.layersEvaluations 0
  let r ← (layerItems proof d pointInv).foldlM
    (verifyLayerRelease env proof zetas iota d domain twoInv) (true, v)
  return r.1

/-- `step_3_verify_fri` (src/starks/verifier.rs:319-356) in release builds. -/
def step3Release (env : Env F T) (proof : StarkProof F) (domain : Domain F) (c : Challenges F Ch) :
    Outcome Empty Bool := do
  let twoInv ← invOrPanic (2 : F)
  let points ← mapOutcome (fun iota => index domain.ldeRootsOfUnityCoset iota) c.iotas
  let inverses ← batchInverse points
  ((proof.queryList.zip c.iotas).zip inverses).foldlM (fun result x => do
    let ok ← verifyQueryRelease env proof c.zetas x.1.2 x.1.1 domain x.2 twoInv
    return result && ok) true

/-- One iteration of the fold of step 4 (src/starks/verifier.rs:382-440) in release builds: after an underflow of the
number of main columns the slice is out of range and panics. -/
def verifyDeepAtRelease (env : Env F T) (air : Air F Ch) (proof : StarkProof F) (domain : Domain F)
    (c : Challenges F Ch) (root : F) (result : Bool)
    (x : Nat × ((Nat × DeepPolynomialOpenings F) × F)) : Outcome Empty Bool := do
  let i := x.1
  let iota := x.2.1.1
  let opening := x.2.1.2
  let denomInv := x.2.2
  let result := result && Merkle.verify env.hashes.leafBatch env.hashes.node
    opening.ldeCompositionPolyProof proof.compositionPolyRoot iota
    [opening.ldeCompositionPolyEvenEvaluation, opening.ldeCompositionPolyOddEvaluation]
  let _main ← subslice opening.ldeTraceEvaluations 0
    (wrappingSub air.context.traceColumns air.numberAuxiliaryRapColumns)
  let rows ← proof.traceOodFrameEvaluations.numRows
  let points ← mapOutcome (fun row => do
    let v ← index domain.ldeRootsOfUnityCoset iota
    return v - c.z * root ^ row) (List.range rows)
  let divisors ← batchInverse points
  let deep ← reconstructDeep proof c denomInv divisors i
  let query ← index proof.queryList i
  let claimed ← index query.layersEvaluations 0
  return result && decide (claimed = deep)

/-- `step_4_verify_deep_composition_polynomial` (src/starks/verifier.rs:358-441) in release builds. -/
def step4Release (env : Env F T) (air : Air F Ch) (proof : StarkProof F) (domain : Domain F)
    (c : Challenges F Ch) : Outcome Empty Bool := do
  let root ← env.ta.getRoot domain.rootOrder
  let z2 := c.z ^ 2
  let points ← mapOutcome (fun iota => do
    let v ← index domain.ldeRootsOfUnityCoset iota
    return v - z2) c.iotas
  let denoms ← batchInverse points
  let items := (c.iotas.zip proof.deepPolyOpenings).zip denoms
  ((List.range items.length).zip items).foldlM (verifyDeepAtRelease env air proof domain c root) true

/-- `verify` (src/starks/verifier.rs:559-657) in release builds. -/
def verifyRelease {PI : Type} (env : Env F T) (new : AirNew F Ch PI) (proof : StarkProof F) (pubInput : PI)
    (options : ProofOptions) : Outcome Empty Bool := do
  if proof.queryList.length < options.friNumberOfQueries then return false
  else
    let air ← new proof.traceLength pubInput options
    let domain ← Domain.new env.ta air
    let c ← step1 env air proof domain env.tr.init
    if c.1.leadingZerosCount < air.context.proofOptions.grindingFactor.toNat then return false
    else
      let ok2 ← step2Release air proof domain c.1
      if !ok2 then return false
      else
        let ok3 ← step3Release env proof domain c.1
        if !ok3 then return false
        else
          let ok4 ← step4Release env air proof domain c.1
          if !ok4 then return false
          else return true

namespace CairoAir

/-- `boundary_constraints` (src/cairo/air.rs:777-849) in release builds: `num_steps - 1` and `trace_length - 1` wrap
around. -/
def boundaryConstraintsRelease (pi : PublicInputs) (traceLength : Nat) (ch : RAPChallenges FE) :
    Outcome Empty (List (BoundaryConstraint FE)) := do
  let off := builtinOffset (hasRcBuiltin pi)
  let cumulativeProduct ← inv (pi.publicMemory.foldl
    (fun product e => product * (ch.zMemory - (e.1 + ch.alphaMemory * e.2))) 1)
  let rcMin ← Outcome.ofOptionUnwrap pi.rangeCheckMin
  let rcMax ← Outcome.ofOptionUnwrap pi.rangeCheckMax
  return [
    ⟨MEM_A_TRACE_OFFSET, 0, pi.pcInit⟩,
    ⟨MEM_P_TRACE_OFFSET, 0, pi.apInit⟩,
    ⟨MEM_A_TRACE_OFFSET, wrappingSub pi.numSteps 1, pi.pcFinal⟩,
    ⟨MEM_P_TRACE_OFFSET, wrappingSub pi.numSteps 1, pi.apFinal⟩,
    ⟨PERMUTATION_ARGUMENT_COL_0 + 3 - off, wrappingSub traceLength 1,
      ch.zMemory ^ pi.publicMemory.length * cumulativeProduct⟩,
    ⟨PERMUTATION_ARGUMENT_RANGE_CHECK_COL_1 + 2 - off, wrappingSub traceLength 1, 1⟩,
    ⟨RANGE_CHECK_COL_1 - off, 0, (rcMin.toNat : FE)⟩,
    ⟨RANGE_CHECK_COL_3 - off, wrappingSub traceLength 1, (rcMax.toNat : FE)⟩]

/-- `CairoAIR::new` (src/cairo/air.rs:587-658) in release builds. -/
def newRelease : AirNew FE (RAPChallenges FE) PublicInputs := fun traceLength pi options =>
  .ok { air traceLength pi options with boundaryConstraints := boundaryConstraintsRelease pi traceLength }

/-- `CairoAIR::new` (src/cairo/air.rs:587-658) in debug builds, with the `debug_assert!`s of lines 592, 643-646 and
647-650. -/
def newDebug : AirNew FE (RAPChallenges FE) PublicInputs := fun traceLength pi options => do
  let air := air traceLength pi options
  -- `trace_length.is_power_of_two()`
  if traceLength ≠ 2 ^ Nat.log2 traceLength then .panic
  else if air.context.transitionDegrees.length ≠ air.context.numTransitionConstraints then .panic
  else if air.context.transitionExemptions.length ≠ air.context.numTransitionConstraints then .panic
  else .ok air

/-- `verify_cairo_proof` (src/cairo/air.rs:1176-1182) in release builds. -/
def verifyCairoProofRelease (env : Env FE T) (proof : StarkProof FE) (pi : PublicInputs)
    (options : ProofOptions) : Outcome Empty Bool :=
  verifyRelease env newRelease proof pi options

/-- `verify_cairo_proof` (src/cairo/air.rs:1176-1182) in debug builds. -/
def verifyCairoProofDebug (env : Env FE T) (proof : StarkProof FE) (pi : PublicInputs)
    (options : ProofOptions) : Outcome Empty Bool :=
  verify env newDebug proof pi options

end CairoAir
end
end Verif
