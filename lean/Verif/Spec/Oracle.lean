import Verif.Spec.Random
import Mathlib.Data.Set.Finite.List

/-!
# Runs with a random hash function

The hash function is drawn from all functions, instead of the digests of one run as in `Verif.Spec.Random`.
-/

namespace Verif.Spec
variable {F T : Type} [Field F]

/-- The messages of at most `L` bytes. -/
abbrev Message (L : Nat) : Type := { m : Bytes // m.length ≤ L }

noncomputable instance (L : Nat) : Fintype (Message L) := (List.finite_length_le UInt8 L).fintype

/-- The messages of the proof of work: the 32 bytes of the seed and the 8 bytes of the nonce. -/
abbrev WorkMessage : Type := { m : Bytes // m.length = 40 }

instance : Fintype WorkMessage := inferInstanceAs (Fintype (List.Vector UInt8 40))

/-- The program with given hash functions. The transcript collects the bytes it is sent. A challenge is the digest under
`H` of the bytes collected since the last challenge, and the collection starts again with that digest (external:
`DefaultTranscript` of lambdaworks-crypto, whose digests are those of Keccak-256 in reverse order). The digests of the
proof of work are those under `K`. The field, the encoding of its elements, the decoding of challenges, the hashes of the
Merkle trees and the digests of other messages are those of `env`. -/
def hashing (env : Env F T) {L : Nat} (H : Message L → Commitment) (K : WorkMessage → Commitment) : Env F Bytes where
  ta := env.ta
  tr := {
    init := []
    append := fun t b => t ++ b
    challenge := fun t =>
      let digest := if h : t.length ≤ L then H ⟨t, h⟩ else env.keccak t
      (digest, digest.val) }
  toBytes := env.toBytes
  ofDigest := env.ofDigest
  hashes := env.hashes
  keccak := fun message => if h : message.length = 40 then K ⟨message, h⟩ else env.keccak message

end Verif.Spec
