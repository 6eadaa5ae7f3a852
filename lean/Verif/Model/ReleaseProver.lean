import Verif.Model.Release
import Verif.Model.ExecutionTrace
import Verif.Model.Debug

/-!
# The prover in release and in debug builds

`prove` (Verif/Model/Prover.lean) and `buildMainTrace` (Verif/Model/ExecutionTrace.lean) treat an overflow or an
underflow as a panic. Release builds wrap around instead. Only what differs is repeated here. Not repeated are the
products that overflow only for trace lengths of at least `2^56` (see Verif/Model/Release.lean).
-/

namespace Verif
noncomputable section
open Polynomial
variable {F T Ch : Type} [Field F] [DecidableEq F]

/-- The transition term at the point of index `i` (src/starks/constraints/evaluator.rs:205-250) in release builds. -/
def transitionEvaluationAtRelease (context : AirContext) (exemptionEvaluations degreeAdjustments : List (List F))
    (evaluations : List F) (coeffs : List (F × F)) (zerofier : F) (i : Nat) : Outcome Empty F :=
  (((evaluations.zip context.transitionExemptions).zip context.transitionDegrees).zip coeffs).foldlM
    (fun acc x => do
      let eval := x.1.1.1
      let exemption := x.1.1.2
      let degree := x.1.2
      let adj ← index degreeAdjustments (wrappingSub degree 1)
      let adj ← index adj i
      let e ← exemptionFactor context.transitionExemptions context.numTransitionExemptions
        exemptionEvaluations exemption i
      return acc + zerofier * (x.2.1 * adj + x.2.2) * eval * e) 0

/-- The value of all the constraints at the point of index `i` (src/starks/constraints/evaluator.rs:191-253) in
release builds. -/
def evaluateRowRelease (air : Air F Ch) (ldeTrace : TraceTable F)
    (exemptionEvaluations degreeAdjustments : List (List F)) (transitionCoeffs : List (F × F)) (ch : Ch)
    (i : Nat) (boundary zerofier : F) : Outcome Empty F := do
  let frame ← Frame.readFromTrace ldeTrace i air.context.proofOptions.blowupFactor.toNat
    air.context.transitionOffsets
  let evaluations ← air.computeTransition frame ch
  let acc ← transitionEvaluationAtRelease air.context exemptionEvaluations degreeAdjustments evaluations
    transitionCoeffs zerofier i
  return acc + boundary

/-- `ConstraintEvaluator::evaluate` (src/starks/constraints/evaluator.rs:38-260) in release builds, without the
`parallel` feature. -/
def evaluateConstraintsRelease (ta : TwoAdic F) (air : Air F Ch) (boundary : List (BoundaryConstraint F))
    (ldeTrace : TraceTable F) (domain : Domain F) (transitionCoeffs boundaryCoeffs : List (F × F))
    (ch : Ch) : Outcome Empty (List F) := do
  let lde := domain.ldeRootsOfUnityCoset
  let boundaryZerofiers ← mapOutcome (fun bc : BoundaryConstraint F =>
    batchInverse (lde.map fun v => v - domain.tracePrimitiveRoot ^ bc.step)) boundary
  let n := air.traceLength
  let bound := air.compositionPolyDegreeBound
  let dPower := lde.map (· ^ wrappingSub bound n)
  if ldeTrace.nCols = 0 ∧ boundary ≠ [] then .panic
  else
    let boundaryPolys := boundary.map fun c =>
      (columnOf ldeTrace.table c.col ldeTrace.nCols lde.length).map (· - c.value)
    let boundaryEvaluation ← mapOutcome
      (fun x : Nat × F => boundaryEvaluationAt boundaryZerofiers boundaryPolys boundaryCoeffs
        boundary.length x.1 x.2) ((List.range lde.length).zip dPower)
    let blowup := air.context.proofOptions.blowupFactor.toNat
    let exemptions ← Verif.transitionExemptions ta air
    let exemptionEvaluations ← evaluateTransitionExemptions ta exemptions domain
    let maxDegree ← Outcome.ofOptionUnwrap air.context.transitionDegrees.max?
    let degreeAdjustments := (List.range maxDegree).map fun k => lde.map (· ^ wrappingSub bound (n * k))
    let offset : F := (air.context.proofOptions.cosetOffset : F)
    let powers ← ta.powersCoset (trailingZeros 8 blowup) blowup (offset ^ n)
    let zerofiers ← batchInverse (powers.map (· - 1))
    mapOutcome (fun x : (Nat × F) × F => evaluateRowRelease air ldeTrace exemptionEvaluations
      degreeAdjustments transitionCoeffs ch x.1.1 x.1.2 x.2)
      (((List.range lde.length).zip boundaryEvaluation).zip (cycleTake zerofiers zerofiers lde.length))

/-- `round_2_compute_composition_polynomial` (src/starks/prover.rs:226-286) in release builds. -/
def round2Release (env : Env F T) (air : Air F Ch) (domain : Domain F) (r1 : Round1 F Ch)
    (transitionCoeffs boundaryCoeffs : List (F × F)) : Outcome Empty (Round2 F) := do
  let boundary ← air.boundaryConstraints r1.rapChallenges
  let evaluations ← evaluateConstraintsRelease env.ta air boundary r1.ldeTrace domain transitionCoeffs
    boundaryCoeffs r1.rapChallenges
  let h ← computeCompositionPoly env.ta evaluations domain.cosetOffset
  let parts := evenOdd h
  let even ← evaluateOnLde env.ta parts.1 domain.blowupFactor domain.interpolationDomainSize
    domain.cosetOffset
  let odd ← evaluateOnLde env.ta parts.2 domain.blowupFactor domain.interpolationDomainSize
    domain.cosetOffset
  let commit ← batchCommit env ((even.zip odd).map fun x => [x.1, x.2])
  return ⟨parts.1, even, commit.1, commit.2, parts.2, odd⟩

/-- `prove` (src/starks/prover.rs:532-766) in release builds. -/
def proveRelease {PI : Type} (env : Env F T) (new : AirNew F Ch PI) (mainTrace : TraceTable F) (pubInputs : PI)
    (options : ProofOptions) : Outcome Empty (StarkProof F) := do
  let air ← new mainTrace.nRows pubInputs options
  let domain ← Domain.new env.ta air
  let r1 ← round1 env air mainTrace domain env.tr.init
  let boundary ← air.boundaryConstraints r1.1.rapChallenges
  let alphasB := env.samples boundary.length r1.2
  let betasB := env.samples boundary.length alphasB.2
  let alphasT := env.samples air.context.numTransitionConstraints betasB.2
  let betasT := env.samples air.context.numTransitionConstraints alphasT.2
  let r2 ← round2Release env air domain r1.1 (alphasT.1.zip betasT.1) (alphasB.1.zip betasB.1)
  let t := env.tr.append betasT.2 r2.compositionPolyRoot.val
  let z ← Outcome.ofOptionUnwrap (env.tr.sampleZOod env.ofDigest domain.ldeRootsOfUnityCoset
    domain.traceRootsOfUnity t)
  let r3 := round3 air domain r1.1 r2 z.1
  let t := env.appendField z.2 r3.compositionPolyEvenOodEvaluation
  let t := env.appendField t r3.compositionPolyOddOodEvaluation
  let t := r3.traceOodEvaluations.foldl (fun t row => row.foldl env.appendField t) t
  let r4 ← round4 env air domain r1.1 r2 r3 z.1 t
  return { traceLength := air.traceLength
           ldeTraceMerkleRoots := r1.1.ldeTraceMerkleRoots
           traceOodFrameEvaluations := ⟨r3.traceOodEvaluations.flatten, r1.1.tracePolys.length⟩
           compositionPolyRoot := r2.compositionPolyRoot
           compositionPolyEvenOodEvaluation := r3.compositionPolyEvenOodEvaluation
           compositionPolyOddOodEvaluation := r3.compositionPolyOddOodEvaluation
           friLayersMerkleRoots := r4.1.friLayersMerkleRoots
           friLastValue := r4.1.friLastValue
           queryList := r4.1.queryList
           deepPolyOpenings := r4.1.deepPolyOpenings
           nonce := r4.1.nonce }

end

namespace ExecTrace
open CairoAir

/-- `update_values` for one step (src/cairo/execution_trace.rs:572-592) in release builds: the return address of a
call is taken modulo `2^64`. -/
def updateValuesRelease (f : CairoInstructionFlags) (t : RegistersState) (op0 dst res : FE) :
    Run (FE × FE × FE) :=
  match f.opcode with
  | .call =>
    let instructionSize := if f.op1Src = .imm then 2 else 1
    .ok ((((t.pc + instructionSize) % 2 ^ 64 : Nat) : FE), ((t.fp : Nat) : FE), res)
  | .assertEq => .ok (op0, dst, dst)
  | _ => .ok (op0, dst, res)

/-- The first 33 cells of the row of one step (src/cairo/execution_trace.rs:266-336) in release builds. -/
def stepCellsRelease (mem : CairoMemory) (t : RegistersState) : Run (List FE) := do
  let (f, o) ← (instructionFlagsAndOffsets mem t).unwrapErr
  let (dstAddr, dst0) ← computeDst f o t mem
  let (op0Addr, op00) ← computeOp0 f o t mem
  let (op1Addr, op1) ← computeOp1 f o t mem op00
  let res0 ← computeRes f op00 op1 dst0
  let (op0, dst, res) ← updateValuesRelease f t op00 dst0 res0
  let reprFlags ← (f.toTrace).unwrapErr
  let instruction ← memGet mem t.pc
  let t0 := reprFlags.getD 9 0 * dst
  let t1 := t0 * res
  let mul := op0 * op1
  return reprFlags ++ [res, (t.ap : FE), (t.fp : FE), (t.pc : FE), dstAddr, op0Addr, op1Addr,
    instruction, dst, op0, op1] ++ o.toTrace ++ [t0, t1, mul]

/-- `build_cairo_execution_trace` (src/cairo/execution_trace.rs:261-356) in release builds. -/
def buildCairoExecutionTraceRelease (states : List RegistersState) (mem : CairoMemory)
    (pi : PublicInputs) : Run (List (List FE)) := do
  let cells ← mapOutcome (stepCellsRelease mem) states
  if states.length = 0 then .panic
  else
    let withSelector :=
      cells.mapIdx fun i c => c ++ [if i = states.length - 1 then (0 : FE) else 1]
    match pi.memorySegments.get? .rangeCheck with
    | some range => do
      let values ← rcValues range mem
      return withSelector.mapIdx fun i c => c ++ rcCells values i
    | none => return withSelector

/-- `build_main_trace` (src/cairo/execution_trace.rs:57-87) in release builds. -/
def buildMainTraceRelease (states : List RegistersState) (mem : CairoMemory) (pi : PublicInputs) :
    Run (List (List FE) × PublicInputs) := do
  let exec ← buildCairoExecutionTraceRelease states mem pi
  let nCols := exec.head?.elim 0 List.length
  let addressCols := (getCols exec ADDR_COLUMNS).insertionSort fun a b => a.val ≤ b.val
  let (rcHoles, rcMin, rcMax) ← getRcHoles (getCols exec [OFF_DST, OFF_OP0, OFF_OP1])
  let pi' := { pi with
    rangeCheckMin := some (UInt16.ofNat rcMin), rangeCheckMax := some (UInt16.ofNat rcMax) }
  let trace1 := exec ++ rcHoleRows nCols rcHoles
  let memoryHoles ← getMemoryHoles addressCols pi.publicMemory.length
  let last1 ← lastRow trace1
  let trace2 := trace1 ++ memoryHoleRows last1 memoryHoles
  let last2 ← lastRow trace2
  let trace3 := trace2 ++
    List.replicate ((pi.publicMemory.length >>> 2) + 1) (zeroedRow last2 MEMORY_COLUMNS)
  let last3 ← lastRow trace3
  let padding := nextPowerOfTwo trace3.length - trace3.length
  return (trace3 ++ List.replicate padding last3, pi')

/-- `get_pub_memory_addrs` (src/cairo/air.rs:500-517) in release builds: both subtractions are modulo `2^64`, and a
range that ends before its start is empty. -/
def getPubMemoryAddrsRelease (outputRange : Option (Nat × Nat)) (len : Nat) : List FE :=
  match outputRange with
  | some (start, stop) =>
    let outputSection := wrappingSub stop start
    let programSection := wrappingSub len outputSection
    (List.range' 1 programSection).map (fun n : Nat => (n : FE)) ++
      (List.range' start (stop - start)).map (fun n : Nat => (n : FE))
  | none => (List.range' 1 len).map fun n : Nat => (n : FE)

/-- `add_pub_memory_in_public_input_section` (src/cairo/air.rs:475-494) in release builds. `splice` panics when its
range begins after the end of the addresses. The loop then writes a value for each of the new addresses: looking up an
address that is not public memory panics, and so does writing past the end of the values. The loop is modelled by
looking up all the values first, since both failures are panics. -/
def addPubMemoryRelease (addresses values : List FE) (pi : PublicInputs) : Run (List FE × List FE) := do
  let len := pi.publicMemory.length
  let pubMemorySection := wrappingSub addresses.length len
  let addrs := getPubMemoryAddrsRelease (pi.memorySegments.get? .output) len
  if addresses.length < pubMemorySection then .panic
  else
    let vals ← mapOutcome
      (fun a => (Outcome.ofOptionUnwrap (pi.publicMemory.get? a) : Run FE)) addrs
    if values.length < pubMemorySection + addrs.length then .panic
    else return (addresses.take pubMemorySection ++ addrs,
      values.take pubMemorySection ++ vals ++ values.drop (pubMemorySection + addrs.length))

/-- `CairoAIR::build_auxiliary_trace` (src/cairo/air.rs:660-729) in release builds. The public memory may then be
shorter than the section it replaces, so that the indexing of the sorted columns (lines 701-725) can panic. The
columns of the offsets are always long enough. -/
def buildAuxiliaryTraceRelease (pi : PublicInputs) (rows : List (List FE)) (ch : RAPChallenges FE) :
    Run (List (List FE)) := do
  let addressesOriginal := getCols rows ADDR_COLUMNS
  let valuesOriginal := getCols rows VALUE_COLUMNS
  let (addresses, values) ← addPubMemoryRelease addressesOriginal valuesOriginal pi
  let sorted := sortByAddress (addresses.zip values)
  let permutationCol ← memoryPermutationColumn (addressesOriginal.zip valuesOriginal) sorted ch
  let offsetsOriginal := getCols rows [OFF_DST, OFF_OP0, OFF_OP1]
  let offsetsSorted := (sortNat (offsetsOriginal.map fun x => x.val % 2 ^ 16)).map fun n : Nat => (n : FE)
  let rcPermutationCol ← rangeCheckPermutationColumn offsetsOriginal offsetsSorted ch
  if sorted.length < 4 * rows.length ∨ permutationCol.length < 4 * rows.length then .panic
  else
    return (List.range rows.length).map fun i =>
      (List.range 3).map (fun k => offsetsSorted.getD (3 * i + k) 0)
        ++ (List.range 4).map (fun k => (sorted.getD (4 * i + k) (0, 0)).1)
        ++ (List.range 4).map (fun k => (sorted.getD (4 * i + k) (0, 0)).2)
        ++ (List.range 4).map (fun k => permutationCol.getD (4 * i + k) 0)
        ++ (List.range 3).map (fun k => rcPermutationCol.getD (3 * i + k) 0)

end ExecTrace

namespace CairoAir
noncomputable section
variable {T : Type}

/-- `CairoAIR::new` (src/cairo/air.rs:587-658) in release builds, with the methods the prover calls. The verifier
does not call `build_auxiliary_trace`, the one method in which this differs from `newRelease`. -/
def newReleaseProver : AirNew FE (RAPChallenges FE) PublicInputs := fun traceLength pi options =>
  .ok { air traceLength pi options with
    boundaryConstraints := boundaryConstraintsRelease pi traceLength
    buildAuxiliaryTrace := fun main ch => do
      let aux ← ExecTrace.buildAuxiliaryTraceRelease pi (tableRows main) ch
      return ⟨aux.flatten, numberAuxiliaryRapColumns⟩ }

/-- `generate_cairo_proof` (src/cairo/air.rs:1165-1171) in release builds. -/
def generateCairoProofRelease (env : Env FE T) (trace : TraceTable FE) (pi : PublicInputs)
    (options : ProofOptions) : Outcome Empty (StarkProof FE) :=
  proveRelease env newReleaseProver trace pi options

/-- `generate_cairo_proof` (src/cairo/air.rs:1165-1171) in debug builds, with the results of the two checks that only
write to the log. -/
def generateCairoProofDebug (env : Env FE T) (trace : TraceTable FE) (pi : PublicInputs)
    (options : ProofOptions) : Outcome Empty (StarkProof FE × Bool × List Nat) :=
  proveDebug env newDebug trace pi options

end
end CairoAir
end Verif
