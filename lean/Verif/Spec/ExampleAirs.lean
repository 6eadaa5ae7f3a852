import Mathlib.Algebra.Field.Defs
import Mathlib.Algebra.BigOperators.Group.Finset.Basic

/-!
# The sequences of the example AIRs
-/

namespace Verif.Spec
variable {F : Type} [Field F]

/-- The Fibonacci sequence with given first terms. -/
def fibSeq (a0 a1 : F) : Nat → F
  | 0 => a0
  | 1 => a1
  | n + 2 => fibSeq a0 a1 (n + 1) + fibSeq a0 a1 n

/-- Repeated squaring. -/
def squares (a0 : F) (i : Nat) : F := a0 ^ (2 ^ i)

/-- The running quotient `∏_{j < i} (a_j + γ) / (b_j + γ)`. -/
def runningQuotient (a b : Nat → F) (γ : F) (i : Nat) : F :=
  ∏ j ∈ Finset.range i, (a j + γ) / (b j + γ)

end Verif.Spec
