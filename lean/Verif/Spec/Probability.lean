import Verif.Spec.Soundness
import Mathlib.Data.Fintype.Pi
import Mathlib.Data.Rat.Defs
import Mathlib.Algebra.Order.Field.Rat

/-!
# The game between a prover and the verifier, and the probability of its outcomes
-/

namespace Verif.Spec
open Polynomial
variable {F Ch : Type} [Field F] [DecidableEq F]

open Classical in
/-- The probability of `P` for a uniform draw from a finite type. -/
noncomputable def probability (Ω : Type) [Fintype Ω] (P : Ω → Prop) : ℚ :=
  (Finset.univ.filter P).card / Fintype.card Ω

/-- All the draws of the verifier once the columns are committed: `nb` pairs of coefficients for the boundary
constraints, `nt` pairs for the transition constraints, the out-of-domain point, the coefficients of the two halves
of the composition polynomial, `k` coefficients for the trace terms, `a` challenges of FRI and `q` queries out of
`N`. -/
abbrev Draws (F : Type) (nb nt k a q N : Nat) : Type :=
  (Fin nb → F) × (Fin nb → F) × (Fin nt → F) × (Fin nt → F) × F × F × F × (Fin k → F) × (Fin a → F) ×
    (Fin q → Fin N)

/-- A way to play the prover once the columns are committed: the two halves of the composition polynomial from the
coefficients of the constraints, the claims (out-of-domain frame and values of the halves, the other parts of the
proof do not matter) also from the point, and the FRI layers also from the coefficients of the DEEP values. -/
structure StarkStrategy (F : Type) where
  halves : (αB βB αT βT : List F) → (Nat → F) × (Nat → F)
  claims : (αB βB αT βT : List F) → F → StarkProof F
  fri : (αB βB αT βT : List F) → F → F → F → List F → FriStrategy F

/-- The verifier is satisfied: the claims have the right shape and pass the check of the composition polynomial,
and for every query the first value of FRI is the DEEP value of the committed words and the folds are right. -/
def StarkStrategy.Wins (P : StarkStrategy F) (air : Air F Ch) (d : Domain F) (a b : Nat) (w : F) (ch : Ch)
    (cols : List (Nat → F)) {nb nt k q : Nat} : Draws F nb nt k a q (2 ^ (a + b)) → Prop
  | (αB, βB, αT, βT, z, γe, γo, γ, ζ, ι) =>
    let αB := List.ofFn αB
    let βB := List.ofFn βB
    let αT := List.ofFn αT
    let βT := List.ofFn βT
    let γ := List.ofFn γ
    let proof := P.claims αB βB αT βT z
    let halves := P.halves αB βB αT βT
    let fri := P.fri αB βB αT βT z γe γo γ
    let c := challengesOf ch αB βB αT βT z γe γo
      (coeffRows air.context.transitionOffsets.length air.context.traceColumns γ)
    let h := (air.context.proofOptions.cosetOffset : F)
    proof.traceOodFrameEvaluations.rowWidth = air.context.traceColumns ∧
    proof.traceOodFrameEvaluations.data.length = air.context.transitionOffsets.length * air.context.traceColumns ∧
    step2 air proof d c = .ok true ∧
    ∀ i, fri.layer [] (ι i)
        = deepWord proof c d.tracePrimitiveRoot (fun s => w ^ s * h) cols halves.1 halves.2 (ι i) ∧
      fri.Passes a b h w (List.ofFn ζ) (ι i)

/-- The error of the game over a field of `size` elements, with `nb` boundary and `nt` transition constraints,
`columns` columns, frames of `offsets` rows, `2^a` rows extended `2^b` times, `q` queries and words that decode up to
`R` errors, with `m` exceptions for the coefficients of combinations of words: the exceptions of all the draws over the size of the field, and the probability that the queries miss
`R + 1` points. -/
def soundnessError (size nb nt columns offsets a b R m q : Nat) : ℚ :=
  (2 * nb + 2 * nt + (4 * 2 ^ a + 3 * 2 ^ (a + b)) + (2 + columns * offsets + a) * m) / size
    + (1 - (R + 1) / 2 ^ (a + b)) ^ q

/-- The committed words are, up to `R` errors in the same places, the values on the extended domain of polynomials of
degree at most the trace length, and these have the property `Q`. -/
def DecodesTo (d : Domain F) (w h : F) (a b R : Nat) (cols : List (Nat → F)) (Q : List (List F) → Prop) : Prop :=
  ∃ polys, Decodes (2 ^ (a + b)) (fun s => w ^ s * h) (2 ^ a + 1) R cols polys ∧
    Q (d.traceRootsOfUnity.map fun x => polys.map fun p => p.eval x)

end Verif.Spec
