import Verif.Model.Poly

/-!
# The sum of the constraint evaluations

A public function that neither the prover nor the verifier calls.
-/

namespace Verif
variable {F : Type} [Field F]

/-- `ConstraintEvaluator::compute_constraint_composition_poly_evaluations_sum`
(src/starks/constraints/evaluator.rs:279-296). -/
def compositionPolyEvaluationsSum (evaluations inverseDenominators degreeAdjustments : List F)
    (constraintCoeffs : List (F × F)) : F :=
  (((evaluations.zip degreeAdjustments).zip inverseDenominators).zip constraintCoeffs).foldl
    (fun acc x => acc + x.1.1.1 * (x.2.1 * x.1.1.2 + x.2.2) * x.1.2) 0

end Verif
