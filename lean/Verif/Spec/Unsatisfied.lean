import Verif.Spec.Verdict

/-!
# Exceptional coefficients
-/

namespace Verif.Spec
variable {F : Type}

/-- Of the pairs of coefficients of `nb` boundary and `nt` transition constraints, the `lucky` ones are rare: there is
a constraint such that, whatever the other coefficients are, at most one value of its second coefficient is lucky. -/
def AtMostOne (lucky : List (F × F) → List (F × F) → Prop) (nb nt : Nat) : Prop :=
  (∃ k < nb, ∀ bC tC : List (F × F), bC.length = nb →
    ∀ α β β', lucky (bC.set k (α, β)) tC → lucky (bC.set k (α, β')) tC → β = β') ∨
  (∃ k < nt, ∀ bC tC : List (F × F), tC.length = nt →
    ∀ α β β', lucky bC (tC.set k (α, β)) → lucky bC (tC.set k (α, β')) → β = β')

/-- The proofs of the trace `table` are rejected, when the first challenges were `ch`, up to exceptions fixed before the
coefficients of the `nb` boundary and the transition constraints and the out-of-domain point are drawn: `lucky`
coefficients, and for each choice of coefficients a set `bad` of fewer points than the trace has rows. Here `x` is
what was drawn in the interaction. -/
def MostlyRejected {Ch PI : Type} [Field F] [DecidableEq F] (ta : TwoAdic F) (new : AirNew F Ch PI) (pi : PI)
    (options : ProofOptions) (air : Air F Ch) (a b : Nat) (table : TraceTable F) (ch : Ch) (nb : Nat) : Prop :=
  ∃ (lucky : List (F × F) → List (F × F) → Prop) (bad : List (F × F) → List (F × F) → Finset F),
    AtMostOne lucky nb air.context.numTransitionConstraints ∧
    (∀ bC tC, (bad bC tC).card < 2 ^ a) ∧
    ∀ {T : Type} (env : Env F T) (proof : StarkProof F), env.ta = ta →
      prove env new table pi options = .ok proof →
      ∀ g w boundary x, ta.root a = some g → ta.root (a + b) = some w →
        Replays env air proof boundary a b g w x → air.rapChallenges (x.rap.map env.ofDigest) = ch →
        let bC := (x.alphaB.map env.ofDigest).zip (x.betaB.map env.ofDigest)
        let tC := (x.alphaT.map env.ofDigest).zip (x.betaT.map env.ofDigest)
        ¬ lucky bC tC → env.ofDigest x.point ∉ bad bC tC →
        verify env new proof pi options ≠ .ok true

end Verif.Spec
