import Verif.Lemmas.Bits
import Verif.Lemmas.Bytes
import Verif.Model.Grinding
import Verif.Spec.Grinding

/-!
# C52: grinding
-/

namespace Verif.Props
open Grinding
open Verif.Spec

/-- C52: the number of zeros the verifier compares with the factor reaches it exactly when the nonce
meets the target. -/
theorem C52_check_iff (keccak : Bytes → Commitment) (challenge : Commitment) (factor nonce : Nat) :
    factor ≤ leadingZerosOf keccak challenge nonce ↔ MeetsTarget keccak challenge factor nonce := by
  unfold leadingZerosOf MeetsTarget
  apply le_trailingZeros
  have h := (keccak (challenge.val ++ leBytes 8 nonce)).property
  generalize (keccak (challenge.val ++ leBytes 8 nonce)).val = d at h
  have hlen : (d.take 8).length = 8 := by simp [h]
  have := beNat_lt (d.take 8)
  rw [hlen] at this
  calc _ < 256 ^ 8 := this
    _ = 2 ^ 64 := by norm_num

/-- C52 (partial: the search leaves out the nonce `2^64 - 1`): the search returns a nonce exactly when
some nonce below `2^64 - 1` meets the target, and then the smallest one. -/
theorem C52_smallest_nonce_partial (keccak : Bytes → Commitment) (challenge : Commitment)
    (factor nonce : Nat) :
    generateNonce keccak challenge factor = some nonce ↔
      nonce < 2^64 - 1 ∧ MeetsTarget keccak challenge factor nonce ∧
      ∀ k < nonce, ¬ MeetsTarget keccak challenge factor k := by
  unfold generateNonce
  rw [List.find?_range_eq_some]
  simp only [decide_eq_true_eq, Bool.not_eq_eq_eq_not, Bool.not_true, decide_eq_false_iff_not,
    C52_check_iff, List.mem_range]
  tauto

/-- The search fails exactly when no nonce below `2^64 - 1` meets the target. -/
theorem C52_search_fails_iff (keccak : Bytes → Commitment) (challenge : Commitment) (factor : Nat) :
    generateNonce keccak challenge factor = none ↔
      ∀ k < 2^64 - 1, ¬ MeetsTarget keccak challenge factor k := by
  unfold generateNonce
  rw [List.find?_eq_none]
  simp only [decide_eq_true_eq, C52_check_iff, List.mem_range]

/-- Digest of 32 equal bytes, for the examples. -/
def constDigest (b : UInt8) : Commitment := ⟨List.replicate 32 b, List.length_replicate⟩

/-- With a constant digest ending in four zero bits every nonce meets the target 4, and the search
returns 0. -/
example : generateNonce (fun _ => constDigest 16) (constDigest 0) 4 = some 0 := by
  rw [C52_smallest_nonce_partial]
  refine ⟨by norm_num, ⟨by norm_num, ?_⟩, fun k hk => absurd hk (by omega)⟩
  decide

/-- C52 fails at the last nonce: for a hash under which only the nonce `2^64 - 1` meets the target,
that nonce passes the verifier's check but the search finds none. -/
theorem C52_last_nonce_not_tried :
    ∃ (keccak : Bytes → Commitment) (challenge : Commitment),
      1 ≤ leadingZerosOf keccak challenge (2^64 - 1) ∧
      MeetsTarget keccak challenge 1 (2^64 - 1) ∧
      generateNonce keccak challenge 1 = none := by
  refine ⟨fun d => if d = (constDigest 0).val ++ leBytes 8 (2^64 - 1) then constDigest 0
    else constDigest 1, constDigest 0, ?_⟩
  have hm : MeetsTarget (fun d => if d = (constDigest 0).val ++ leBytes 8 (2^64 - 1)
      then constDigest 0 else constDigest 1) (constDigest 0) 1 (2^64 - 1) := by
    refine ⟨by norm_num, ?_⟩
    simp only [if_true]
    decide
  refine ⟨(C52_check_iff _ _ _ _).2 hm, hm, ?_⟩
  rw [C52_search_fails_iff]
  rintro k hk ⟨-, hd⟩
  have hne : (constDigest 0).val ++ leBytes 8 k ≠ (constDigest 0).val ++ leBytes 8 (2^64 - 1) := by
    intro h
    have := congrArg leNat (List.append_cancel_left h)
    rw [leNat_leBytes, leNat_leBytes] at this
    · omega
    all_goals norm_num
    all_goals omega
  simp only [hne, if_false] at hd
  exact absurd hd (by decide)

/-- C52: a factor above 64 is met by no nonce, so proving panics and every proof is rejected. -/
theorem C52_factor_above_64 (keccak : Bytes → Commitment) (challenge : Commitment) (factor : Nat)
    (h : 64 < factor) :
    generateNonce keccak challenge factor = none ∧
    ∀ nonce, leadingZerosOf keccak challenge nonce < factor := by
  refine ⟨(C52_search_fails_iff _ _ _).2 fun k _ hm => absurd hm.1 (by omega), fun nonce => ?_⟩
  by_contra hc
  exact absurd ((C52_check_iff keccak challenge factor nonce).1 (not_lt.1 hc)).1 (by omega)

example : 64 < 65 := by norm_num

end Verif.Props
