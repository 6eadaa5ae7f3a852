import Verif.Model.Merkle

/-!
# The hash functions of the Merkle trees
-/

namespace Verif

/-- `Keccak256Tree` and `BatchKeccak256Tree` (lambdaworks `FieldElementBackend` and
`FieldElementVectorBackend`, external; chosen in src/starks/config.rs:10 and 19): a leaf is the hash of the
bytes of its field elements, a node is the hash of the bytes of its two children. Keccak is a parameter. -/
def keccakHashes {F : Type} (keccak : Bytes → Commitment) (toBytes : F → Bytes) : Hashes F where
  leafBatch := fun v => keccak (v.flatMap toBytes)
  leaf := fun x => keccak (toBytes x)
  node := fun l r => keccak (l.val ++ r.val)

end Verif
