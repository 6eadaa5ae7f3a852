import Verif.Spec.Proximity
import Verif.Spec.Air

/-!
# Soundness of the protocol

The committed columns are words on the extended domain: functions on the indices of its `N` points `x`.
-/

namespace Verif.Spec
open Polynomial
variable {F T Ch : Type} [Field F] [DecidableEq F]

/-- The words have the values of the polynomials, of degree below `k`, at all but `R` of the `N` points, the same
points for all the words. -/
structure Decodes (N : Nat) (x : Nat → F) (k R : Nat) (words : List (Nat → F)) (polys : List F[X]) : Prop where
  length : polys.length = words.length
  degree : ∀ p ∈ polys, p.degree < k
  agree : ∃ good : Finset Nat, N ≤ good.card + R ∧ ∀ s ∈ good, s < N ∧
    ∀ (j : Nat) f p, words[j]? = some f → polys[j]? = some p → f s = p.eval (x s)

/-- The coefficients of the trace terms, drawn one after another: `columns` rows of `offsets` each. -/
def coeffRows (offsets : Nat) : Nat → List F → List (List F)
  | 0, _ => []
  | columns + 1, γ => γ.take offsets :: coeffRows offsets columns (γ.drop offsets)

/-- The values of the committed columns and of the two halves of the composition polynomial at the index `s`, as
an opening. -/
def openingAt (cols : List (Nat → F)) (even odd : Nat → F) (s : Nat) : DeepPolynomialOpenings F where
  ldeCompositionPolyProof := ⟨[]⟩
  ldeCompositionPolyEvenEvaluation := even s
  ldeCompositionPolyOddEvaluation := odd s
  ldeTraceMerkleProofs := []
  ldeTraceEvaluations := cols.map fun f => f s

/-- The challenges the verifier has drawn before FRI. -/
def challengesOf (ch : Ch) (αB βB αT βT : List F) (z γe γo : F) (rows : List (List F)) : Challenges F Ch where
  z := z
  boundaryCoeffs := αB.zip βB
  transitionCoeffs := αT.zip βT
  traceTermCoeffs := rows
  gammaEven := γe
  gammaOdd := γo
  zetas := []
  iotas := []
  rapChallenges := ch
  leadingZerosCount := 0

/-- The DEEP values of the committed columns and composition halves, from the claims of a proof. -/
def deepWord (proof : StarkProof F) (c : Challenges F Ch) (g : F) (x : Nat → F) (cols : List (Nat → F))
    (even odd : Nat → F) (s : Nat) : F :=
  deepValue proof c g (x s) (openingAt cols even odd s)

/-- The root of the composition polynomial commits to the values of its two halves on the extended domain. -/
structure CommitsHalves (env : Env F T) (proof : StarkProof F) (a b : Nat) (even odd : Nat → F)
    (tree : Merkle.Tree) : Prop where
  build : Merkle.build env.hashes.leafBatch env.hashes.node
    ((List.range (2 ^ (a + b))).map fun s => [even s, odd s]) = .ok tree
  root : proof.compositionPolyRoot = tree.root

/-- The opening `o` of the composition polynomial at the index `iota` exhibits a collision with the opening of the
committed values. -/
def OpeningCollides (env : Env F T) (even odd : Nat → F) (tree : Merkle.Tree) (iota : Nat)
    (o : DeepPolynomialOpenings F) : Prop :=
  ∃ own, tree.getProofByPos env.hashes.node iota = some own ∧
    Collide env.hashes.leafBatch env.hashes.node iota o.ldeCompositionPolyProof.merklePath
      [o.ldeCompositionPolyEvenEvaluation, o.ldeCompositionPolyOddEvaluation] own.merklePath [even iota, odd iota]

end Verif.Spec
