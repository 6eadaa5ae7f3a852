import Verif.Model.ProofCodec
import Mathlib.Data.Nat.Log

/-!
# Merkle trees

Models the Merkle trees of lambdaworks-crypto (external: `MerkleTree::build`, `get_proof_by_pos`,
`Proof::verify`) that `src/starks/config.rs:10-20` instantiates. The hash functions are parameters.
A tree is represented by its row of hashed leaves.
-/

namespace Verif

/-- The hash functions behind `BatchedMerkleTreeBackend` (rows of field elements),
`FriMerkleTreeBackend` (single field elements) and their common hash of two nodes
(src/starks/config.rs:10-20). -/
structure Hashes (F : Type) where
  leafBatch : List F → Commitment
  leaf : F → Commitment
  node : Commitment → Commitment → Commitment

namespace Merkle

/-- The parents of a row of nodes (lambdaworks `merkle_tree::utils::build`, external).
Used at src/starks/prover.rs:101. -/
def parents (node : Commitment → Commitment → Commitment) : List Commitment → List Commitment
  | a :: b :: rest => node a b :: parents node rest
  | _ => []

/-- `complete_until_power_of_two` (lambdaworks, external): repeats the last leaf.
Used at src/starks/prover.rs:101. -/
def complete (l : List Commitment) : List Commitment :=
  match l.getLast? with
  | none => []
  | some x => l ++ List.replicate (2 ^ Nat.clog 2 l.length - l.length) x

/-- The root above a row of `2^k` nodes (lambdaworks, external).
Used at src/starks/prover.rs:101. -/
def rootOf (node : Commitment → Commitment → Commitment) : Nat → List Commitment → Commitment
  | 0, l => l.headD ⟨List.replicate 32 0, List.length_replicate⟩
  | k + 1, l => rootOf node k (parents node l)

/-- The sibling hashes from a leaf to the root (lambdaworks `build_merkle_path`, external).
Used at src/starks/prover.rs:500. -/
def pathOf (node : Commitment → Commitment → Commitment) : Nat → List Commitment → Nat →
    List Commitment
  | 0, _, _ => []
  | k + 1, l, pos =>
    l.getD (if pos % 2 = 0 then pos + 1 else pos - 1) ⟨List.replicate 32 0, List.length_replicate⟩
      :: pathOf node k (parents node l) (pos / 2)

/-- `MerkleTree` (lambdaworks, external): the hashed leaves, completed to a power of two.
Used at src/starks/prover.rs:101. -/
structure Tree where
  leaves : List Commitment
  root : Commitment

/-- `MerkleTree::build` (lambdaworks, external): panics without leaves.
Used at src/starks/prover.rs:101. -/
def build {V : Type} (leaf : V → Commitment) (node : Commitment → Commitment → Commitment)
    (values : List V) : Outcome Empty Tree :=
  if values = [] then .panic
  else
    let leaves := complete (values.map leaf)
    .ok ⟨leaves, rootOf node (Nat.log 2 leaves.length) leaves⟩

/-- `get_proof_by_pos` (lambdaworks, external). Used at src/starks/prover.rs:500. -/
def Tree.getProofByPos (node : Commitment → Commitment → Commitment) (t : Tree) (pos : Nat) :
    Option MerkleProof :=
  if pos < t.leaves.length then some ⟨pathOf node (Nat.log 2 t.leaves.length) t.leaves pos⟩ else none

/-- The hash at the end of a path (the loop of `Proof::verify`; lambdaworks, external).
Used at src/starks/verifier.rs:397. -/
def climb (node : Commitment → Commitment → Commitment) : List Commitment → Nat → Commitment →
    Commitment
  | [], _, h => h
  | s :: path, index, h =>
    climb node path (index / 2) (if index % 2 = 0 then node h s else node s h)

/-- `Proof::verify` (lambdaworks, external). Used at src/starks/verifier.rs:397. -/
def verify {V : Type} (leaf : V → Commitment) (node : Commitment → Commitment → Commitment)
    (proof : MerkleProof) (root : Commitment) (index : Nat) (value : V) : Bool :=
  decide (root = climb node proof.merklePath index (leaf value))

end Merkle
end Verif
