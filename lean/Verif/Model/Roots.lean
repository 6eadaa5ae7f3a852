import Verif.Model.Poly
import Mathlib.FieldTheory.Finite.Basic

/-!
# The two-adic roots of unity of Stark252

The field Stark252 has the roots of unity the model takes as a parameter.
-/

namespace Verif
variable {F : Type} [Field F]

theorem primitive_of_half {r : F} {A : Nat} (h1 : r ^ 2 ^ (A + 1) = 1) (h2 : r ^ 2 ^ A ≠ 1) :
    IsPrimitiveRoot r (2 ^ (A + 1)) := by
  have : Fact (Nat.Prime 2) := ⟨Nat.prime_two⟩
  rw [← orderOf_eq_prime_pow h2 h1]
  exact IsPrimitiveRoot.orderOf r

/-- The roots obtained by repeated squaring from one of maximal order, as lambdaworks computes them
(external `IsFFTField::get_primitive_root_of_unity`). Used at src/starks/domain.rs:30. -/
def TwoAdic.ofRoot (A : Nat) (r : F) (h : IsPrimitiveRoot r (2 ^ A)) : TwoAdic F where
  adicity := A
  root := fun k => if k ≤ A then some (r ^ 2 ^ (A - k)) else none
  primitive := by
    intro k w _ hw
    split at hw
    · rename_i hk
      rw [← Option.some.inj hw]
      exact h.pow (by positivity) (by rw [← pow_add]; congr 1; omega)
    · cases hw
  defined := by intro k _ hk; simp [hk]
  square := by
    intro k w w' _ hw hw'
    split at hw'
    · rename_i hk
      simp only [show k ≤ A by omega, if_true] at hw
      rw [← Option.some.inj hw, ← Option.some.inj hw', ← pow_mul, ← pow_succ]
      congr 2
      omega
    · cases hw'
  undefined := by intro k hk; simp; omega

theorem stark_primitive : IsPrimitiveRoot ((3 : FE) ^ ((P - 1) / 2 ^ 192)) (2 ^ 192) := by
  refine primitive_of_half (A := 191) ?_ ?_
  · rw [← pow_mul, show (P - 1) / 2 ^ 192 * 2 ^ (191 + 1) = P - 1 by rw [P_eq]; norm_num]
    exact ZMod.pow_card_sub_one_eq_one (by
      intro h
      have : ((3 : Nat) : FE) = 0 := by exact_mod_cast h
      rw [ZMod.natCast_eq_zero_iff] at this
      exact absurd (Nat.le_of_dvd (by norm_num) this) (by rw [P_eq]; norm_num))
  · rw [← pow_mul, show (P - 1) / 2 ^ 192 * 2 ^ 191 = (P - 1) / 2 by rw [P_eq]; norm_num]
    refine pow_three_ne_one (by rw [P_eq]; norm_num) ?_
    decide +kernel

/-- The two-adic roots of unity of Stark252 (external: lambdaworks `Stark252PrimeField`, whose
two-adicity is 192). Used at src/starks/domain.rs:30. -/
def starkRoots : TwoAdic FE := TwoAdic.ofRoot 192 _ stark_primitive

end Verif
