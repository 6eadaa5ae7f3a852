import Verif.Model.Roots
import Verif.Lemmas.Poly

/-!
# Two-adic roots of unity of a small field

A small field with the roots of unity the model takes as a parameter.
-/

namespace Verif
instance : Fact (Nat.Prime 17) := ⟨by norm_num⟩

theorem primitive17 : IsPrimitiveRoot (3 : ZMod 17) (2 ^ 4) :=
  primitive_of_half (A := 3) (by decide) (by decide)

/-- The roots of unity of the field with 17 elements, for examples. -/
def roots17 : TwoAdic (ZMod 17) := TwoAdic.ofRoot 4 3 primitive17

end Verif
