import Verif.Model.Trace
import Verif.Model.CairoAir
import Verif.Model.ExecutionTrace

/-!
# AIRs and trace validation

Models `src/starks/traits.rs:15-96`, `src/starks/context.rs`, `src/starks/constraints/boundary.rs:14-33`
(the data), `src/starks/debug.rs:14-82` and the `AIR` implementation of `CairoAIR`
(src/cairo/air.rs:574-867).
-/

namespace Verif

/-- `ProofOptions` (src/starks/proof/options.rs:20-26). -/
structure ProofOptions where
  blowupFactor : UInt8
  friNumberOfQueries : Nat
  cosetOffset : Nat
  grindingFactor : UInt8
  deriving DecidableEq, Repr

/-- `AirContext` (src/starks/context.rs:3-18). -/
structure AirContext where
  proofOptions : ProofOptions
  traceColumns : Nat
  transitionDegrees : List Nat
  transitionOffsets : List Nat
  transitionExemptions : List Nat
  numTransitionConstraints : Nat
  numTransitionExemptions : Nat
  deriving DecidableEq, Repr

/-- `BoundaryConstraint` (src/starks/constraints/boundary.rs:13-17). -/
structure BoundaryConstraint (F : Type) where
  col : Nat
  step : Nat
  value : F
  deriving DecidableEq, Repr

/-- The trait `AIR` (src/starks/traits.rs:15-119) for an AIR value over the field `F` with challenges
`Ch`. `build_rap_challenges` draws a fixed number of field elements from the transcript: it is given
by that number and the function building the challenges from them. -/
structure Air (F Ch : Type) where
  context : AirContext
  traceLength : Nat
  compositionPolyDegreeBound : Nat
  numberAuxiliaryRapColumns : Nat
  numRapChallenges : Nat
  rapChallenges : List F → Ch
  buildAuxiliaryTrace : TraceTable F → Ch → Outcome Empty (TraceTable F)
  computeTransition : Frame F → Ch → Outcome Empty (List F)
  boundaryConstraints : Ch → Outcome Empty (List (BoundaryConstraint F))

/-! ## Trace validation (src/starks/debug.rs:14-82) -/

section
variable {F Ch : Type} [DecidableEq F] [Zero F]

/-- The boundary part of `validate_trace` (src/starks/debug.rs:33-47). -/
def validateBoundary (trace : TraceTable F) : List (BoundaryConstraint F) → Outcome Empty Bool
  | [] => .ok true
  | c :: rest => do
    let v ← trace.get c.step c.col
    let r ← validateBoundary trace rest
    return decide (c.value = v) && r

/-- One step of the transition part (src/starks/debug.rs:64-79): the evaluations against the
exemption steps. -/
def validateEvaluations (step : Nat) (exemptionSteps : List Nat) :
    Nat → List F → Outcome Empty Bool
  | _, [] => .ok true
  | i, e :: rest => do
    let limit ← index exemptionSteps i
    let r ← validateEvaluations step exemptionSteps (i + 1) rest
    return !(decide (step < limit) && decide (e ≠ 0)) && r

/-- The `exemption_steps` (src/starks/debug.rs:53-57). A subtraction that underflows panics (debug
builds). -/
def exemptionSteps (nRows numConstraints : Nat) (exemptions : List Nat) : Outcome Empty (List Nat) :=
  mapOutcome (fun e => if e ≤ nRows then .ok (nRows - e) else .panic)
    (exemptions.take numConstraints)

/-- The transition part over all the steps (src/starks/debug.rs:60-80). -/
def validateSteps (air : Air F Ch) (trace : TraceTable F) (ch : Ch) (limits : List Nat) :
    List Nat → Outcome Empty Bool
  | [] => .ok true
  | step :: rest => do
    let frame ← Frame.readFromTrace trace step 1 air.context.transitionOffsets
    let evaluations ← air.computeTransition frame ch
    let b ← validateEvaluations step limits 0 evaluations
    let r ← validateSteps air trace ch limits rest
    return b && r

/-- `validate_trace` after the columns have been evaluated and put into a table
(src/starks/debug.rs:32-81). -/
def validateTable (air : Air F Ch) (trace : TraceTable F) (ch : Ch) : Outcome Empty Bool := do
  let boundary ← air.boundaryConstraints ch
  let b ← validateBoundary trace boundary
  let limits ← exemptionSteps trace.nRows air.context.numTransitionConstraints
    air.context.transitionExemptions
  let s ← validateSteps air trace ch limits (List.range trace.nRows)
  return b && s

end

/-- `validate_trace` (src/starks/debug.rs:14-82). `evaluate_fft` (external) evaluates a polynomial at
the powers of the primitive root of the trace domain. -/
noncomputable def validateTrace {F Ch : Type} [Field F] [DecidableEq F] (air : Air F Ch)
    (polys : List (Polynomial F)) (primitiveRoot : F) (domainSize : Nat) (ch : Ch) :
    Outcome Empty Bool := do
  let table ← TraceTable.newFromCols
    (polys.map fun p => (List.range domainSize).map fun i => p.eval (primitiveRoot ^ i))
  validateTable air table ch

/-! ## The Cairo AIR (src/cairo/air.rs:574-867) -/

namespace CairoAir

/-- `compute_transition` on a frame (src/cairo/air.rs:743-767): the first two rows are read, and a
cell outside a row panics. The largest column read is the last permutation column. -/
def computeTransitionFrame (hasRc : Bool) (frame : Frame FE) (ch : RAPChallenges FE) :
    Outcome Empty (List FE) := do
  let curr ← frame.getRow 0
  let next ← frame.getRow 1
  if traceColumns hasRc ≤ frame.rowWidth then
    return computeTransition hasRc ch (fun i => curr.getD i 0) (fun i => next.getD i 0)
  else .panic

/-- `FieldElement::inv` (lambdaworks, external): panics on zero. Used at src/cairo/air.rs:808. -/
def inv (x : FE) : Outcome Empty FE := if x = 0 then .panic else .ok x⁻¹

/-- `boundary_constraints` (src/cairo/air.rs:777-849). The subtractions `num_steps - 1` and
`trace_length - 1` panic on zero (debug builds; in release builds they wrap around). -/
def boundaryConstraints (pi : PublicInputs) (traceLength : Nat) (ch : RAPChallenges FE) :
    Outcome Empty (List (BoundaryConstraint FE)) := do
  if pi.numSteps = 0 ∨ traceLength = 0 then .panic
  else
    let off := builtinOffset (hasRcBuiltin pi)
    let cumulativeProduct ← inv (pi.publicMemory.foldl
      (fun product e => product * (ch.zMemory - (e.1 + ch.alphaMemory * e.2))) 1)
    let rcMin ← Outcome.ofOptionUnwrap pi.rangeCheckMin
    let rcMax ← Outcome.ofOptionUnwrap pi.rangeCheckMax
    return [
      ⟨MEM_A_TRACE_OFFSET, 0, pi.pcInit⟩,
      ⟨MEM_P_TRACE_OFFSET, 0, pi.apInit⟩,
      ⟨MEM_A_TRACE_OFFSET, pi.numSteps - 1, pi.pcFinal⟩,
      ⟨MEM_P_TRACE_OFFSET, pi.numSteps - 1, pi.apFinal⟩,
      ⟨PERMUTATION_ARGUMENT_COL_0 + 3 - off, traceLength - 1,
        ch.zMemory ^ pi.publicMemory.length * cumulativeProduct⟩,
      ⟨PERMUTATION_ARGUMENT_RANGE_CHECK_COL_1 + 2 - off, traceLength - 1, 1⟩,
      ⟨RANGE_CHECK_COL_1 - off, 0, (rcMin.toNat : FE)⟩,
      ⟨RANGE_CHECK_COL_3 - off, traceLength - 1, (rcMax.toNat : FE)⟩]

/-- The rows of a table, for the functions of `Verif/Model/ExecutionTrace.lean`.
See src/cairo/air.rs:660-713. -/
def tableRows (t : TraceTable FE) : List (List FE) :=
  (List.range t.nRows).map fun i => (t.table.drop (i * t.nCols)).take t.nCols

/-- `CairoAIR` (src/cairo/air.rs:452-457, 574-867). The `debug_assert`s of `new` are not modelled. -/
def air (traceLength : Nat) (pi : PublicInputs) (options : ProofOptions) :
    Air FE (RAPChallenges FE) where
  context := {
    proofOptions := options
    traceColumns := traceColumns (hasRcBuiltin pi)
    transitionDegrees := transitionDegrees (hasRcBuiltin pi)
    transitionOffsets := [0, 1]
    transitionExemptions := transitionExemptions (hasRcBuiltin pi)
    numTransitionConstraints := numTransitionConstraints (hasRcBuiltin pi)
    numTransitionExemptions := 1 }
  traceLength := traceLength
  compositionPolyDegreeBound := 2 * traceLength
  numberAuxiliaryRapColumns := numberAuxiliaryRapColumns
  numRapChallenges := 3
  rapChallenges := fun l => ⟨l.getD 0 0, l.getD 1 0, l.getD 2 0⟩
  buildAuxiliaryTrace := fun main ch => do
    let aux ← ExecTrace.buildAuxiliaryTrace pi (tableRows main) ch
    return ⟨aux.flatten, numberAuxiliaryRapColumns⟩
  computeTransition := computeTransitionFrame (hasRcBuiltin pi)
  boundaryConstraints := boundaryConstraints pi traceLength

end CairoAir
end Verif
