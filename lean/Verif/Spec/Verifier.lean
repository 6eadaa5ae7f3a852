import Verif.Spec.Stark

/-!
# What an accepted proof satisfies

The checks the verifier documents, written without its loops.
-/

namespace Verif.Spec
variable {F T Ch : Type} [Field F] [DecidableEq F]

/-- The fold with the challenge `ζ` of the values `v` at `x` and `v'` at `-x`. -/
def foldValue (ζ x v v' : F) : F := (v + v') / 2 + ζ * ((v - v') / (2 * x))

/-- The check of a query `q` at the point `x` with index `iota` in the layer `k`: the two values are
opened against the root of the layer, at `iota` and half a domain further, and their fold is the value
in the next layer, or the last value of the proof when the query has no next layer. `m` is the order of
the first domain. -/
structure LayerHolds (env : Env F T) (proof : StarkProof F) (m iota : Nat) (x : F) (q : FriDecommitment F)
    (k : Nat) (root : Commitment) (ζ : F) (path : MerkleProof) (v : F) (pathSym : MerkleProof) (vSym : F) :
    Prop where
  order : k ≤ m
  opened : Merkle.verify env.hashes.leaf env.hashes.node path root iota v = true
  openedSym : Merkle.verify env.hashes.leaf env.hashes.node pathSym root
    ((iota + 2 ^ (m - k) / 2) % 2 ^ (m - k)) vSym = true
  folds : foldValue ζ (x ^ 2 ^ k) v vSym = (q.layersEvaluations[k + 1]?).getD proof.friLastValue

/-- The check of a query: it has a value in the first layer, and the check holds in every layer for which
the proof has a root and the query its two paths and values. -/
def QueryHolds (env : Env F T) (proof : StarkProof F) (zetas : List F) (m iota : Nat) (x : F)
    (q : FriDecommitment F) : Prop :=
  q.layersEvaluations ≠ [] ∧
  ∀ (k : Nat) root path v pathSym vSym, proof.friLayersMerkleRoots[k]? = some root →
    q.layersAuthPaths[k]? = some path → q.layersEvaluations[k]? = some v →
    q.layersAuthPathsSym[k]? = some pathSym → q.layersEvaluationsSym[k]? = some vSym →
    ∃ ζ, zetas[k]? = some ζ ∧ LayerHolds env proof m iota x q k root ζ path v pathSym vSym

/-- The cell in row `r` and column `j` of a frame. -/
def frameCell (frame : Frame F) (r j : Nat) : F := frame.data.getD (r * frame.rowWidth + j) 0

/-- The number of rows of a frame. -/
def frameHeight (frame : Frame F) : Nat := frame.data.length / frame.rowWidth

/-- The DEEP value of an opening at the point `x`: the random combination of the quotients
`(value - claimed value) / (x - point)` of the opened values of the columns, which the frame of the proof
claims at `z g^r`, and of the two halves of the composition polynomial, which the proof claims at
`z^2`. -/
def deepValue (proof : StarkProof F) (c : Challenges F Ch) (g x : F) (o : DeepPolynomialOpenings F) : F :=
  (((List.range proof.traceOodFrameEvaluations.rowWidth).zip c.traceTermCoeffs).map fun (j, γs) =>
    (((List.range (frameHeight proof.traceOodFrameEvaluations)).zip γs).map fun (r, γ) =>
      γ * ((o.ldeTraceEvaluations.getD j 0 - frameCell proof.traceOodFrameEvaluations r j)
        / (x - c.z * g ^ r))).sum).sum
  + c.gammaEven * ((o.ldeCompositionPolyEvenEvaluation - proof.compositionPolyEvenOodEvaluation)
      / (x - c.z ^ 2))
  + c.gammaOdd * ((o.ldeCompositionPolyOddEvaluation - proof.compositionPolyOddOodEvaluation)
      / (x - c.z ^ 2))

/-- The check of an opening `o` against the query `q` of the same index: the composition halves are
opened against their root and the first value of the query is the DEEP value. -/
structure OpeningHolds (env : Env F T) (proof : StarkProof F) (c : Challenges F Ch) (iota : Nat) (g x : F)
    (o : DeepPolynomialOpenings F) (q : FriDecommitment F) : Prop where
  opened : Merkle.verify env.hashes.leafBatch env.hashes.node o.ldeCompositionPolyProof
    proof.compositionPolyRoot iota [o.ldeCompositionPolyEvenEvaluation, o.ldeCompositionPolyOddEvaluation] = true
  value : q.layersEvaluations[0]? = some (deepValue proof c g x o)

/-- The shape of the proofs the prover makes, for an extended domain of `2^m` points: a trace root, an
out-of-domain frame with a row for every offset and the width of the trace, at most one FRI layer for every
halving of the domain, a value in every query, and openings of at least the width of the trace. -/
structure WellFormed (air : Air F Ch) (proof : StarkProof F) (m : Nat) : Prop where
  roots : proof.ldeTraceMerkleRoots ≠ []
  width : proof.traceOodFrameEvaluations.rowWidth = air.context.traceColumns
  frame : proof.traceOodFrameEvaluations.data.length
    = air.context.transitionOffsets.length * air.context.traceColumns
  layers : proof.friLayersMerkleRoots.length ≤ m + 1
  queries : ∀ q ∈ proof.queryList, q.layersEvaluations ≠ []
  openings : ∀ o ∈ proof.deepPolyOpenings, air.context.traceColumns ≤ o.ldeTraceEvaluations.length

end Verif.Spec
