import Verif.Model.ExecutionTrace
import Verif.Lemmas.ExecutionTrace

/-! Helper lemmas about the range-check builtin columns. -/

namespace Verif.ExecTrace
open CairoAir

theorem limb_eq (n k : Nat) : n >>> (16 * k) &&& 0xFFFF = n / 2 ^ (16 * k) % 2 ^ 16 := by
  rw [Nat.shiftRight_eq_div_pow]
  exact Nat.and_two_pow_sub_one_eq_mod _ 16

theorem limbs_sum (n : Nat) :
    n / 2 ^ (16 * 0) % 2 ^ 16 + n / 2 ^ (16 * 1) % 2 ^ 16 * 2 ^ 16
      + n / 2 ^ (16 * 2) % 2 ^ 16 * 2 ^ 32 + n / 2 ^ (16 * 3) % 2 ^ 16 * 2 ^ 48
      + n / 2 ^ (16 * 4) % 2 ^ 16 * 2 ^ 64 + n / 2 ^ (16 * 5) % 2 ^ 16 * 2 ^ 80
      + n / 2 ^ (16 * 6) % 2 ^ 16 * 2 ^ 96 + n / 2 ^ (16 * 7) % 2 ^ 16 * 2 ^ 112 = n % 2 ^ 128 := by
  norm_num
  omega

/-- The builtin constraint on the decomposition of a value. -/
theorem rangeCheckBuiltin_decompose (row : Nat → FE) (v : FE)
    (hl : ∀ k < 8, row (34 + k) = (decomposeRc v).getD k 0) (hv : row 42 = v) :
    rangeCheckBuiltin row = ((v.val % 2 ^ 128 : Nat) : FE) - v := by
  have hl' : ∀ k < 8, row (34 + k) = ((v.val / 2 ^ (16 * k) % 2 ^ 16 : Nat) : FE) := by
    intro k hk
    rw [hl k hk, ← limb_eq]
    simp [decomposeRc, hk]
  have h0 := hl' 0 (by decide)
  rw [Nat.add_zero] at h0
  simp only [rangeCheckBuiltin, RC_0, RC_VALUE]
  rw [h0, hl' 1 (by decide), hl' 2 (by decide), hl' 3 (by decide), hl' 4 (by decide),
    hl' 5 (by decide), hl' 6 (by decide), hl' 7 (by decide), hv, ← limbs_sum v.val]
  push_cast
  ring

theorem rangeCheckBuiltin_iff (v : FE) : ((v.val % 2 ^ 128 : Nat) : FE) - v = 0 ↔ v.val < 2 ^ 128 := by
  rw [sub_eq_zero]
  constructor
  · intro h
    have h1 := congrArg ZMod.val h
    have hP : 2 ^ 128 < P := lt_trans (by norm_num) P_gt
    have hlt : v.val % 2 ^ 128 < 2 ^ 128 := Nat.mod_lt _ (by norm_num)
    rw [ZMod.val_natCast_of_lt (by omega)] at h1
    omega
  · intro h
    rw [Nat.mod_eq_of_lt h, ZMod.natCast_zmod_val]

end Verif.ExecTrace
