import Verif.Model.Bytes

/-!
# Proof of work

The target of the grinding step: the first eight bytes of the digest of the challenge followed by the
nonce (least significant byte first), read as a big-endian number, end in `factor` zero bits.
-/

namespace Verif.Spec

/-- The nonce meets the target for the challenge. -/
def MeetsTarget (keccak : Bytes → Commitment) (challenge : Commitment) (factor nonce : Nat) : Prop :=
  factor ≤ 64 ∧ 2 ^ factor ∣ beNat ((keccak (challenge.val ++ leBytes 8 nonce)).val.take 8)

end Verif.Spec
