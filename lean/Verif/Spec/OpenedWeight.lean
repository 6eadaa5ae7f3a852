import Verif.Model.Verifier

/-!
# How an opened value of the trace enters the DEEP value
-/

namespace Verif.Spec
variable {F : Type} [Field F]

/-- The factor of an opened value of a column in the DEEP value at `x`, when the coefficients of the column are `γs`, one
for every row of the frame, the out-of-domain point is `z` and the trace domain is generated by `g`. -/
def openedWeight (g z x : F) (γs : List F) : F :=
  (((List.range γs.length).zip γs).map fun (r, γ) => γ / (x - z * g ^ r)).sum

end Verif.Spec
