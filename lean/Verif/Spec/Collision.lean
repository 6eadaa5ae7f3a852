import Verif.Spec.Oracle
import Verif.Spec.Work
import Verif.Model.Backends
import Verif.Model.Verifier

/-!
# Looking for two openings of one commitment
-/

namespace Verif.Spec
variable {F T Ch : Type} [Field F]

/-- The hash function that is `K` for the messages of at most `L` bytes and `keccak` for all others. -/
def drawnHash (keccak : Bytes → Commitment) {L : Nat} (K : Message L → Commitment) : Bytes → Commitment :=
  fun m => if h : m.length ≤ L then K ⟨m, h⟩ else keccak m

/-- The hash of two nodes of a Merkle tree. -/
def nodeHash (hash : Bytes → Commitment) (l r : Commitment) : Commitment := hash (l.val ++ r.val)

/-- Something that a proof opens to answer a query: the pair of values of the composition polynomial, or the value in a
layer of FRI at the position of the query or at the opposite position. -/
inductive Place
  | composition (query : Nat)
  | layer (query layer : Nat)
  | opposite (query layer : Nat)

/-- The query that the opening answers. -/
def Place.query : Place → Nat
  | composition i => i
  | layer i _ => i
  | opposite i _ => i

/-- What a proof opens there: a path and values. -/
def Place.opening (proof : StarkProof F) : Place → Option (MerkleProof × List F)
  | composition i => do
    let o ← proof.deepPolyOpenings[i]?
    return (o.ldeCompositionPolyProof, [o.ldeCompositionPolyEvenEvaluation, o.ldeCompositionPolyOddEvaluation])
  | layer i j => do
    let q ← proof.queryList[i]?
    let path ← q.layersAuthPaths[j]?
    let v ← q.layersEvaluations[j]?
    let _ ← q.layersAuthPathsSym[j]?
    let _ ← q.layersEvaluationsSym[j]?
    return (path, [v])
  | opposite i j => do
    let q ← proof.queryList[i]?
    let _ ← q.layersAuthPaths[j]?
    let _ ← q.layersEvaluations[j]?
    let path ← q.layersAuthPathsSym[j]?
    let v ← q.layersEvaluationsSym[j]?
    return (path, [v])

/-- The layer, if the opening is in one, is among the first `layers`. -/
def Place.Within (layers : Nat) : Place → Prop
  | composition _ => True
  | layer _ j => j < layers
  | opposite _ j => j < layers

/-- The proof with other answers to the queries. -/
def withAnswers (proof : StarkProof F) (openings : List (DeepPolynomialOpenings F)) (queries : List (FriDecommitment F)) :
    StarkProof F :=
  { proof with deepPolyOpenings := openings, queryList := queries }

/-- The messages that are hashed when a message is hashed and carried along a path. -/
def messagesOf (hash : Bytes → Commitment) : Bytes → List Commitment → Nat → List Bytes
  | m, [], _ => [m]
  | m, s :: path, index =>
    m :: messagesOf hash (if index % 2 = 0 then (hash m).val ++ s.val else s.val ++ (hash m).val) path (index / 2)

/-- The index at which the opening is in its tree, in the setting of a domain of `2^n` points. -/
def indexOf (n iota : Nat) : Place → Nat
  | .composition _ => iota
  | .layer _ _ => iota
  | .opposite _ j => (iota + 2 ^ (n - j) / 2) % 2 ^ (n - j)

/-- The root of the tree that the opening is in. -/
def rootAt (proof : StarkProof F) : Place → Option Commitment
  | .composition _ => some proof.compositionPolyRoot
  | .layer _ j => proof.friLayersMerkleRoots[j]?
  | .opposite _ j => proof.friLayersMerkleRoots[j]?

/-- The number of values that are opened there. -/
def Place.width : Place → Nat
  | .composition _ => 2
  | _ => 1

end Verif.Spec
