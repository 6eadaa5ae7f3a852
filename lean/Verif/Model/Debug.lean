import Verif.Model.Prover
import Verif.Model.Air

/-!
# The prover in debug builds

Debug builds run two checks more: `validate_trace` after the first round (src/starks/prover.rs:574-580) and
`check_boundary_polys_divisibility` in the evaluator (src/starks/constraints/evaluator.rs:84-121, without the
`parallel` feature). Both only write to the log. The messages are modelled by what decides them: the boolean
`validate_trace` returns and the indices of the polynomials reported. The debug evaluator also collects the
evaluations of the transition constraints in a list it does not use (lines 125, 202). `new_from_cols` asserts in debug
builds that the columns have the same length (src/starks/trace.rs:47). The `debug_assert!`s of `CairoAIR::new` are in
`CairoAir.newDebug` (Verif/Model/Release.lean).
-/

namespace Verif
noncomputable section
open Polynomial
variable {F T Ch : Type} [Field F] [DecidableEq F]

/-- `check_boundary_polys_divisibility` (src/starks/debug.rs:84-98): the indices it reports. The polynomials and the
zerofiers are zipped, so that the longer list is cut. `long_division_with_remainder` (lambdaworks, external) inverts
the leading coefficient of the divisor, which panics for zero. -/
def checkBoundaryPolysDivisibility (polys zerofiers : List F[X]) : Outcome Empty (List Nat) := do
  let reports ← mapOutcome (fun x : (F[X] × F[X]) × Nat =>
    if x.1.2 = 0 then .panic else .ok (if x.1.1 % x.1.2 = 0 then [] else [x.2])) (polys.zip zerofiers).zipIdx
  return reports.flatten

/-- `TraceTable::new_from_cols` (src/starks/trace.rs:45-59) in debug builds, with the assertion of line 47. -/
def TraceTable.newFromColsDebug (cols : List (List F)) : Outcome Empty (TraceTable F) := do
  let first ← index cols 0
  if cols.all fun c => decide (c.length = first.length) then TraceTable.newFromCols cols else .panic

/-- `interpolate_and_commit` (src/starks/prover.rs:126-159) in debug builds. -/
def interpolateAndCommitDebug (env : Env F T) (trace : TraceTable F) (domain : Domain F) (t : T) :
    Outcome Empty ((List F[X] × List (List F) × Merkle.Tree × Commitment) × T) := do
  let polys ← trace.computeTracePolys env.ta
  let evaluations ← computeLdeTraceEvaluations env polys domain
  let ldeTrace ← TraceTable.newFromColsDebug evaluations
  let rows ← ldeTrace.rows
  let commit ← batchCommit env rows
  return ((polys, evaluations, commit.1, commit.2), env.tr.append t commit.2.val)

/-- `round_1_randomized_air_with_preprocessing` (src/starks/prover.rs:187-224) in debug builds. -/
def round1Debug (env : Env F T) (air : Air F Ch) (mainTrace : TraceTable F) (domain : Domain F) (t : T) :
    Outcome Empty (Round1 F Ch × T) := do
  let main ← interpolateAndCommitDebug env mainTrace domain t
  let rap := buildRapChallenges env air main.2
  let auxTrace ← air.buildAuxiliaryTrace mainTrace rap.1
  if auxTrace.nCols = 0 then
    let ldeTrace ← TraceTable.newFromColsDebug main.1.2.1
    return (⟨main.1.1, ldeTrace, [main.1.2.2.1], [main.1.2.2.2], rap.1⟩, rap.2)
  else
    let aux ← interpolateAndCommitDebug env auxTrace domain rap.2
    let ldeTrace ← TraceTable.newFromColsDebug (main.1.2.1 ++ aux.1.2.1)
    return (⟨main.1.1 ++ aux.1.1, ldeTrace, [main.1.2.2.1, aux.1.2.2.1],
      [main.1.2.2.2, aux.1.2.2.2], rap.1⟩, aux.2)

/-- `round_2_compute_composition_polynomial` (src/starks/prover.rs:226-286) in debug builds, with the reports of the
evaluator: the lists of boundary polynomials and of zerofiers that it passes to the check are created empty and not
filled (src/starks/constraints/evaluator.rs:84-85, 117-121). -/
def round2Debug (env : Env F T) (air : Air F Ch) (domain : Domain F) (r1 : Round1 F Ch)
    (transitionCoeffs boundaryCoeffs : List (F × F)) : Outcome Empty (Round2 F × List Nat) := do
  let reports ← checkBoundaryPolysDivisibility ([] : List F[X]) []
  let r2 ← round2 env air domain r1 transitionCoeffs boundaryCoeffs
  return (r2, reports)

/-- `prove` (src/starks/prover.rs:532-766) in debug builds: the proof, the result of the validation of the trace
(lines 574-580) and the reports of the evaluator. The columns `validate_trace` puts into a table (src/starks/debug.rs:30)
have one length by construction, so that the assertion of `new_from_cols` is left out there. -/
def proveDebug {PI : Type} (env : Env F T) (new : AirNew F Ch PI) (mainTrace : TraceTable F) (pubInputs : PI)
    (options : ProofOptions) : Outcome Empty (StarkProof F × Bool × List Nat) := do
  let air ← new mainTrace.nRows pubInputs options
  let domain ← Domain.new env.ta air
  let r1 ← round1Debug env air mainTrace domain env.tr.init
  let valid ← validateTrace air r1.1.tracePolys domain.tracePrimitiveRoot domain.interpolationDomainSize
    r1.1.rapChallenges
  let boundary ← air.boundaryConstraints r1.1.rapChallenges
  let alphasB := env.samples boundary.length r1.2
  let betasB := env.samples boundary.length alphasB.2
  let alphasT := env.samples air.context.numTransitionConstraints betasB.2
  let betasT := env.samples air.context.numTransitionConstraints alphasT.2
  let r2 ← round2Debug env air domain r1.1 (alphasT.1.zip betasT.1) (alphasB.1.zip betasB.1)
  let reports := r2.2
  let r2 := r2.1
  let t := env.tr.append betasT.2 r2.compositionPolyRoot.val
  let z ← Outcome.ofOptionUnwrap (env.tr.sampleZOod env.ofDigest domain.ldeRootsOfUnityCoset
    domain.traceRootsOfUnity t)
  let r3 := round3 air domain r1.1 r2 z.1
  let t := env.appendField z.2 r3.compositionPolyEvenOodEvaluation
  let t := env.appendField t r3.compositionPolyOddOodEvaluation
  let t := r3.traceOodEvaluations.foldl (fun t row => row.foldl env.appendField t) t
  let r4 ← round4 env air domain r1.1 r2 r3 z.1 t
  return ({ traceLength := air.traceLength
            ldeTraceMerkleRoots := r1.1.ldeTraceMerkleRoots
            traceOodFrameEvaluations := ⟨r3.traceOodEvaluations.flatten, r1.1.tracePolys.length⟩
            compositionPolyRoot := r2.compositionPolyRoot
            compositionPolyEvenOodEvaluation := r3.compositionPolyEvenOodEvaluation
            compositionPolyOddOodEvaluation := r3.compositionPolyOddOodEvaluation
            friLayersMerkleRoots := r4.1.friLayersMerkleRoots
            friLastValue := r4.1.friLastValue
            queryList := r4.1.queryList
            deepPolyOpenings := r4.1.deepPolyOpenings
            nonce := r4.1.nonce }, valid, reports)

end
end Verif
