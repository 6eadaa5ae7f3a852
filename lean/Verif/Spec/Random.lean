import Verif.Model.Fri
import Mathlib.Data.Fintype.Vector
import Mathlib.Data.Fintype.EquivFin

/-!
# Runs with drawn digests

A hash function modelled as a random one gives an independent uniform digest for every message it has not been asked.
An honest run asks the transcript for one challenge after the other, each in a new state, and hashes the seed of the
proof of work with one nonce after the other. So the digests of a run are independent draws of 32 bytes.
-/

namespace Verif.Spec
variable {F T : Type} [Field F]

instance : Fintype UInt8 := Fintype.ofEquiv (Fin 256) ⟨UInt8.ofFin, UInt8.toFin, fun _ => rfl, fun _ => rfl⟩

/-- The digests: all lists of 32 bytes. -/
instance : Fintype Commitment := inferInstanceAs (Fintype (List.Vector UInt8 32))

/-- The program with given digests. The challenges of the transcript are, one after the other, the digests `before`,
then the digests `point`, then those of `rest`. The digest of the proof of work for the nonce `n`, which is the last
part of the message, after the 32 bytes of the seed, is the entry `n` of `nonces`. The field, the encoding of its
elements, the decoding of challenges, the hashes of the Merkle trees and all other digests are those of `env`. -/
def answering (env : Env F T) (rest : Nat → Commitment) {s r m : Nat} (before : Fin s → Commitment)
    (point : Fin r → Commitment) (nonces : Fin m → Commitment) : Env F Nat where
  ta := env.ta
  tr := {
    init := 0
    append := fun t _ => t
    challenge := fun n =>
      (if h : n < s then before ⟨n, h⟩ else if h : n - s < r then point ⟨n - s, h⟩ else rest n, n + 1) }
  toBytes := env.toBytes
  ofDigest := env.ofDigest
  hashes := env.hashes
  keccak := fun message =>
    if h : leNat (message.drop 32) < m then nonces ⟨leNat (message.drop 32), h⟩ else env.keccak message

end Verif.Spec
