import Mathlib.NumberTheory.LucasPrimality
import Mathlib.Tactic.NormNum.Prime
import Mathlib.Data.ZMod.Basic
import Mathlib.Algebra.Field.ZMod
import Mathlib.Tactic.NormNum.PowMod

/-!
# The Stark252 field

`lambdaworks_math::field::fields::fft_friendly::stark_252_prime_field::Stark252PrimeField`
(external crate) is the prime field of order `2^251 + 17 * 2^192 + 1`. Every `FE` of the code
(`src/lib.rs:9-10`) is an element of it. Primality is proved below.
-/

namespace Verif

/-- The Stark252 prime (external: lambdaworks `stark_252_prime_field`). Used at src/lib.rs:12. -/
def P : Nat := 2^251 + 17 * 2^192 + 1

/-- `FE = FieldElement<Stark252PrimeField>` (src/lib.rs:9-10). -/
abbrev FE := ZMod P

theorem P_eq : P = 3618502788666131213697322783095070105623107215331596699973092056135872020481 := by
  unfold P; norm_num

/-- Square-and-multiply modulo `m` (proof device for the primality certificate, not code). -/
def powMod (m : Nat) : Nat → Nat → Nat → Nat
  | 0, _, _ => 1 % m
  | k + 1, b, e =>
    if e % 2 = 1 then b * powMod m k (b * b % m) (e / 2) % m else powMod m k (b * b % m) (e / 2)

theorem powMod_eq (m k b e : Nat) (he : e < 2 ^ k) : powMod m k b e = b ^ e % m := by
  induction k generalizing b e with
  | zero => have : e = 0 := by simpa using he
            subst this; simp [powMod]
  | succ k ih =>
    have h2 : e / 2 < 2 ^ k := by rw [pow_succ] at he; omega
    have hpow : (b * b % m) ^ (e / 2) % m = b ^ (2 * (e / 2)) % m := by
      rw [← Nat.pow_mod, pow_mul, pow_two]
    unfold powMod
    split
    next h =>
      rw [ih _ _ h2, hpow, Nat.mul_mod_mod]
      conv_rhs => rw [show e = 2 * (e / 2) + 1 by omega, pow_succ, mul_comm]
    next h =>
      rw [ih _ _ h2, hpow]
      conv_rhs => rw [show e = 2 * (e / 2) by omega]

theorem pow_three_ne_one {e : Nat} (he : e < 2 ^ 252) (h : powMod P 252 3 e ≠ 1) :
    (3 : ZMod P) ^ e ≠ 1 := by
  intro hc
  have h3 : ((3 ^ e : Nat) : ZMod P) = ((1 : Nat) : ZMod P) := by push_cast; exact hc
  rw [ZMod.natCast_eq_natCast_iff] at h3
  have : 3 ^ e % P = 1 % P := h3
  rw [Nat.mod_eq_of_lt (a := 1) (by rw [P_eq]; norm_num)] at this
  exact h (by rw [powMod_eq _ _ _ _ he, this])

/-- The modulus is prime (Lucas certificate: base 3, `P - 1 = 2^192 * 5 * 7 * 98714381 * 166848103`). -/
theorem P_prime : P.Prime := by
  have hfac : P - 1 = 2^192 * (5 * 7 * 98714381 * 166848103) := by rw [P_eq]; norm_num
  refine lucas_primality P 3 ?_ ?_
  · have : ((3 ^ (P - 1) : Nat) : ZMod P) = ((1 : Nat) : ZMod P) := by
      rw [ZMod.natCast_eq_natCast_iff]
      show 3 ^ (P - 1) % P = 1 % P
      rw [← powMod_eq P 252 3 (P - 1) (by rw [P_eq]; norm_num)]
      decide +kernel
    push_cast at this; exact this
  · intro q hq hdvd
    rw [hfac] at hdvd
    have hq' : q = 2 ∨ q = 5 ∨ q = 7 ∨ q = 98714381 ∨ q = 166848103 := by
      rcases (Nat.Prime.dvd_mul hq).1 hdvd with h | h
      · left; exact (Nat.prime_dvd_prime_iff_eq hq Nat.prime_two).1 (hq.dvd_of_dvd_pow h)
      · rcases (Nat.Prime.dvd_mul hq).1 h with h | h
        · rcases (Nat.Prime.dvd_mul hq).1 h with h | h
          · rcases (Nat.Prime.dvd_mul hq).1 h with h | h
            · right; left; exact (Nat.prime_dvd_prime_iff_eq hq (by norm_num)).1 h
            · right; right; left; exact (Nat.prime_dvd_prime_iff_eq hq (by norm_num)).1 h
          · right; right; right; left; exact (Nat.prime_dvd_prime_iff_eq hq (by norm_num)).1 h
        · right; right; right; right; exact (Nat.prime_dvd_prime_iff_eq hq (by norm_num)).1 h
    rcases hq' with rfl | rfl | rfl | rfl | rfl
    all_goals
      refine pow_three_ne_one (by rw [P_eq]; norm_num) ?_
      decide +kernel

instance : Fact P.Prime := ⟨P_prime⟩

end Verif
