import Verif.Model.Verifier

/-!
# What the verifier reads in a proof

Used by C55 to say exactly when the verifier panics.
-/

namespace Verif.Spec
variable {F Ch : Type}

/-- The out-of-domain frame can be read: it has a first row with the columns of the boundary constraints (when there
are any), and the transition constraints can be evaluated on it. -/
def FrameReadable (air : Air F Ch) (boundary : List (BoundaryConstraint F)) (frame : Frame F) (ch : Ch) : Prop :=
  (∀ c ∈ boundary, c.col < frame.rowWidth ∧ frame.rowWidth ≤ frame.data.length) ∧
    ∃ evals, air.computeTransition frame ch = .ok evals

/-- The number of FRI layers for which an answer to a query has all the parts. -/
def answeredLayers (proof : StarkProof F) (q : FriDecommitment F) : Nat :=
  min proof.friLayersMerkleRoots.length (min q.layersAuthPaths.length (min q.layersEvaluations.length
    (min q.layersAuthPathsSym.length q.layersEvaluationsSym.length)))

/-- The answers to the queries can be read: each has a value, and none goes through more layers than `order + 1`, the
number of times that the domain of `2^order` points can be halved, and one more. -/
def QueriesReadable (proof : StarkProof F) (queries order : Nat) : Prop :=
  ∀ q ∈ proof.queryList.take queries, q.layersEvaluations ≠ [] ∧ answeredLayers proof q ≤ order + 1

/-- The openings of the trace can be read: each has the main columns, and the columns of the out-of-domain frame when
this has a row. -/
def OpeningsReadable (air : Air F Ch) (proof : StarkProof F) (queries : Nat) : Prop :=
  ∀ o ∈ proof.deepPolyOpenings.take queries,
    air.context.traceColumns - air.numberAuxiliaryRapColumns ≤ o.ldeTraceEvaluations.length ∧
    (proof.traceOodFrameEvaluations.rowWidth ≤ proof.traceOodFrameEvaluations.data.length →
      min proof.traceOodFrameEvaluations.rowWidth air.context.traceColumns ≤ o.ldeTraceEvaluations.length)

end Verif.Spec
