import Verif.Model.Bytes
import Mathlib.Data.Nat.Find

/-!
# The transcript

Models `src/starks/transcript.rs`. The transcript itself (lambdaworks `Transcript`, external) is a
state machine: `append` absorbs bytes and `challenge` returns 32 bytes and moves to the next state.
-/

namespace Verif

/-- The trait `Transcript` of lambdaworks-crypto (external) and `new` of the transcript in use.
Used at src/starks/prover.rs:86-93. -/
structure Transcript (T : Type) where
  init : T
  append : T → Bytes → T
  challenge : T → Commitment × T

/-- The loop of `randomness_to_field` (src/starks/transcript.rs:32-37): zeroes whole bytes while at
least eight bits remain to be cleared, then masks the next byte (lines 39-41). `randomness[i]` beyond
the end panics. -/
def clearBits : Nat → Bytes → Outcome Empty Bytes
  | _, [] => .panic
  | bits, b :: rest =>
    if 8 ≤ bits then do
      let r ← clearBits (bits - 8) rest
      return 0 :: r
    else
      -- `1u8.checked_shl(8 - bits).unwrap_or(0).wrapping_sub(1)`
      let preMask : UInt8 := if 8 - bits < 8 then UInt8.ofNat (2 ^ (8 - bits)) else 0
      .ok ((b &&& (preMask - 1)) :: rest)

/-- `randomness_to_field` (src/starks/transcript.rs:23-43) for the field `Stark252` with
`field_bit_size()` (external) as a parameter; `from_bytes_be(..).unwrap()` cannot fail on 32
bytes. -/
def randomnessToField (fieldBits : Nat) (randomness : Commitment) : Outcome Empty FE := do
  -- `random_bits_created - random_bits_required` underflows for fields of more than 257 bits
  if fieldBits = 0 ∨ 256 < fieldBits - 1 then .panic
  else
    let cleared ← clearBits (256 - (fieldBits - 1)) randomness.val
    Outcome.ofOptionUnwrap (feFromBytesBe cleared)

namespace Transcript
variable {T F : Type}

/-- `transcript_to_field` (src/starks/transcript.rs:13-19). `ofDigest` is `randomness_to_field`. -/
def toField (tr : Transcript T) (ofDigest : Commitment → F) (t : T) : F × T :=
  let r := tr.challenge t
  (ofDigest r.1, r.2)

/-- `transcript_to_usize` (src/starks/transcript.rs:45-51), for 64-bit targets. -/
def toUsize (tr : Transcript T) (t : T) : Nat × T :=
  let r := tr.challenge t
  (beNat (r.1.val.take 8), r.2)

/-- `batch_sample_challenges` (src/starks/transcript.rs:71-79). -/
def batchSample (tr : Transcript T) (ofDigest : Commitment → F) : Nat → T → List F × T
  | 0, t => ([], t)
  | k + 1, t =>
    let x := tr.toField ofDigest t
    let r := batchSample tr ofDigest k x.2
    (x.1 :: r.1, r.2)

/-- The state after `k` challenges (the transcript side of the loop of `sample_z_ood`,
src/starks/transcript.rs:61-68). -/
def after (tr : Transcript T) : Nat → T → T
  | 0, t => t
  | k + 1, t => after tr k (tr.challenge t).2

/-- `sample_z_ood` (src/starks/transcript.rs:53-69): the first sampled value outside both lists and
the state after sampling it. `none` when the loop never ends. -/
noncomputable def sampleZOod [DecidableEq F] (tr : Transcript T) (ofDigest : Commitment → F)
    (lde trace : List F) (t : T) : Option (F × T) :=
  open Classical in
  if h : ∃ k, (tr.toField ofDigest (tr.after k t)).1 ∉ lde ∧
      (tr.toField ofDigest (tr.after k t)).1 ∉ trace
  then some (tr.toField ofDigest (tr.after (Nat.find h) t))
  else none

end Transcript
end Verif
