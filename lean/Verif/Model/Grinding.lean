import Verif.Model.Options
import Verif.Model.Bytes

/-!
# Grinding

Models `src/starks/grinding.rs`. `Keccak256::digest` (sha3, external) is the parameter `keccak`.
-/

namespace Verif.Grinding

/-- `hash_transcript_with_int_and_get_leading_zeros` (src/starks/grinding.rs:17-29). The challenge is
an array of 32 bytes, the value a `u64`, and a digest has 32 bytes. -/
def leadingZerosOf (keccak : Bytes → Commitment) (challenge : Commitment) (value : Nat) : Nat :=
  let data := challenge.val ++ leBytes 8 value
  let digest := keccak data
  let seedHead := beNat (digest.val.take 8)
  trailingZeros 64 seedHead

/-- `generate_nonce_with_grinding` (src/starks/grinding.rs:40-48): the first candidate of
`0..u64::MAX`, which excludes the end point. -/
def generateNonce (keccak : Bytes → Commitment) (challenge : Commitment) (grindingFactor : Nat) :
    Option Nat :=
  (List.range (2^64 - 1)).find? fun nonce => grindingFactor ≤ leadingZerosOf keccak challenge nonce

end Verif.Grinding
