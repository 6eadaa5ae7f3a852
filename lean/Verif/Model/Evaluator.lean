import Verif.Model.Poly

/-!
# Constraint evaluation

Models `src/starks/constraints/evaluator.rs` and `src/starks/constraints/evaluation_table.rs`.
The debug-only checks (`check_boundary_polys_divisibility` on empty lists) are not modelled.
-/

namespace Verif
noncomputable section
open Polynomial
variable {F Ch : Type} [Field F] [DecidableEq F]

/-- `a - b` on `usize` (Rust core): underflow panics (debug builds; release builds wrap around).
Used at src/starks/verifier.rs:305. -/
def checkedSub (a b : Nat) : Outcome Empty Nat := if b ≤ a then .ok (a - b) else .panic

/-- `iter().skip(col).step_by(n).take(count)` on the table (Rust core), for `n > 0`.
Used at src/starks/constraints/evaluator.rs:95-99. -/
def columnOf (table : List F) (col n count : Nat) : List F :=
  ((TraceTable.stepBy (table.drop col).length n).map fun i => (table.drop col).getD i 0).take count

/-- `evaluate_transition_exemptions` (src/starks/constraints/evaluator.rs:299-323). -/
def evaluateTransitionExemptions (ta : TwoAdic F) (exemptions : List F[X]) (domain : Domain F) :
    Outcome Empty (List (List F)) :=
  mapOutcome (fun e => evaluateOnLde ta e domain.blowupFactor domain.interpolationDomainSize
    domain.cosetOffset) exemptions

/-- The boundary term at the point of index `i`
(src/starks/constraints/evaluator.rs:104-115). -/
def boundaryEvaluationAt (zerofierInverses polyEvaluations : List (List F))
    (coeffs : List (F × F)) (number : Nat) (i : Nat) (d : F) : Outcome Empty F :=
  ((List.range number).zip coeffs).foldlM (fun acc x => do
    let z ← index zerofierInverses x.1
    let z ← index z i
    let p ← index polyEvaluations x.1
    let p ← index p i
    return acc + z * (x.2.1 * d + x.2.2) * p) 0

/-- The factor for the exempted rows of one constraint at the point of index `i`
(src/starks/constraints/evaluator.rs:216-248): none for no exemption, the first polynomial when the
AIR declares a single kind of exemption, the position among the different exemptions otherwise. -/
def exemptionFactor (exemptions : List Nat) (numExemptions : Nat) (evaluations : List (List F))
    (exemption i : Nat) : Outcome Empty F :=
  if exemption = 0 then .ok 1
  else if numExemptions = 1 then do
    let e ← index evaluations 0
    index e i
  else do
    let vector := unique (exemptions.filter (0 < ·))
    let position ← Outcome.ofOptionUnwrap (vector.findIdx? (· = exemption))
    let e ← index evaluations position
    index e i

/-- The transition term at the point of index `i` (src/starks/constraints/evaluator.rs:205-250). -/
def transitionEvaluationAt (context : AirContext) (exemptionEvaluations degreeAdjustments : List (List F))
    (evaluations : List F) (coeffs : List (F × F)) (zerofier : F) (i : Nat) : Outcome Empty F :=
  (((evaluations.zip context.transitionExemptions).zip context.transitionDegrees).zip coeffs).foldlM
    (fun acc x => do
      let eval := x.1.1.1
      let exemption := x.1.1.2
      let degree := x.1.2
      let d1 ← checkedSub degree 1
      let adj ← index degreeAdjustments d1
      let adj ← index adj i
      let e ← exemptionFactor context.transitionExemptions context.numTransitionExemptions
        exemptionEvaluations exemption i
      return acc + zerofier * (x.2.1 * adj + x.2.2) * eval * e) 0

/-- The value of all the constraints at the point of index `i`
(src/starks/constraints/evaluator.rs:191-253). -/
def evaluateRow (air : Air F Ch) (ldeTrace : TraceTable F)
    (exemptionEvaluations degreeAdjustments : List (List F)) (transitionCoeffs : List (F × F)) (ch : Ch)
    (i : Nat) (boundary zerofier : F) : Outcome Empty F := do
  let frame ← Frame.readFromTrace ldeTrace i air.context.proofOptions.blowupFactor.toNat
    air.context.transitionOffsets
  let evaluations ← air.computeTransition frame ch
  let acc ← transitionEvaluationAt air.context exemptionEvaluations degreeAdjustments evaluations
    transitionCoeffs zerofier i
  return acc + boundary

/-- The next `count` elements of `orig.iter().cycle()` (Rust core) when `it` is left of the current
round: at its end a new round begins, and there are no elements when `orig` is empty.
Used at src/starks/constraints/evaluator.rs:186. -/
def cycleTake {α : Type} (orig : List α) : List α → Nat → List α
  | _, 0 => []
  | x :: it, k + 1 => x :: cycleTake orig it k
  | [], k + 1 => match orig with
    | [] => []
    | x :: it => x :: cycleTake orig it k

/-- `ConstraintEvaluator::evaluate` (src/starks/constraints/evaluator.rs:38-260), without the
`parallel` feature (see Verif/Model/Parallel.lean). -/
def evaluateConstraints (ta : TwoAdic F) (air : Air F Ch) (boundary : List (BoundaryConstraint F))
    (ldeTrace : TraceTable F) (domain : Domain F) (transitionCoeffs boundaryCoeffs : List (F × F))
    (ch : Ch) : Outcome Empty (List F) := do
  let lde := domain.ldeRootsOfUnityCoset
  let boundaryZerofiers ← mapOutcome (fun bc : BoundaryConstraint F =>
    batchInverse (lde.map fun v => v - domain.tracePrimitiveRoot ^ bc.step)) boundary
  let n := air.traceLength
  let bound := air.compositionPolyDegreeBound
  let boundaryAdjustment ← checkedSub bound n
  let dPower := lde.map (· ^ boundaryAdjustment)
  if ldeTrace.nCols = 0 ∧ boundary ≠ [] then .panic
  else
    let boundaryPolys := boundary.map fun c =>
      (columnOf ldeTrace.table c.col ldeTrace.nCols lde.length).map (· - c.value)
    let boundaryEvaluation ← mapOutcome
      (fun x : Nat × F => boundaryEvaluationAt boundaryZerofiers boundaryPolys boundaryCoeffs
        boundary.length x.1 x.2) ((List.range lde.length).zip dPower)
    let blowup := air.context.proofOptions.blowupFactor.toNat
    let exemptions ← Verif.transitionExemptions ta air
    let exemptionEvaluations ← evaluateTransitionExemptions ta exemptions domain
    let maxDegree ← Outcome.ofOptionUnwrap air.context.transitionDegrees.max?
    let degreeAdjustments ← mapOutcome (fun k => do
      let adjustment ← checkedSub bound (n * k)
      return lde.map (· ^ adjustment)) (List.range maxDegree)
    let offset : F := (air.context.proofOptions.cosetOffset : F)
    let powers ← ta.powersCoset (trailingZeros 8 blowup) blowup (offset ^ n)
    let zerofiers ← batchInverse (powers.map (· - 1))
    mapOutcome (fun x : (Nat × F) × F => evaluateRow air ldeTrace exemptionEvaluations degreeAdjustments
      transitionCoeffs ch x.1.1 x.1.2 x.2)
      (((List.range lde.length).zip boundaryEvaluation).zip (cycleTake zerofiers zerofiers lde.length))

/-- `ConstraintEvaluationTable::compute_composition_poly`
(src/starks/constraints/evaluation_table.rs:27-33). -/
def computeCompositionPoly (ta : TwoAdic F) (evaluations : List F) (offset : F) :
    Outcome Empty F[X] := interpolateOffsetFft ta evaluations offset

end
end Verif
