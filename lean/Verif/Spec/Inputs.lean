import Verif.Spec.Verdict
import Verif.Model.Air

/-!
# Changed public inputs
-/

namespace Verif.Spec
variable {F Ch : Type} [Field F]

/-- The two AIRs are the same except for what their boundary constraints say, and for how the prover builds the
auxiliary trace. -/
structure SameButBoundary (air air' : Air F Ch) : Prop where
  context : air'.context = air.context
  traceLength : air'.traceLength = air.traceLength
  bound : air'.compositionPolyDegreeBound = air.compositionPolyDegreeBound
  auxiliary : air'.numberAuxiliaryRapColumns = air.numberAuxiliaryRapColumns
  numRapChallenges : air'.numRapChallenges = air.numRapChallenges
  rapChallenges : air'.rapChallenges = air.rapChallenges
  computeTransition : air'.computeTransition = air.computeTransition
  /-- equally many boundary constraints -/
  number : ∀ ch boundary boundary', air.boundaryConstraints ch = .ok boundary →
    air'.boundaryConstraints ch = .ok boundary' → boundary'.length = boundary.length

/-- `pi'` is `pi` with another value for one of the registers or bounds that the `k`-th boundary constraint states. -/
inductive ChangedInput (pi : PublicInputs) : Nat → PublicInputs → Prop
  | pcInit (v : FE) : v ≠ pi.pcInit → ChangedInput pi 0 { pi with pcInit := v }
  | apInit (v : FE) : v ≠ pi.apInit → ChangedInput pi 1 { pi with apInit := v }
  | pcFinal (v : FE) : v ≠ pi.pcFinal → ChangedInput pi 2 { pi with pcFinal := v }
  | apFinal (v : FE) : v ≠ pi.apFinal → ChangedInput pi 3 { pi with apFinal := v }
  | rangeCheckMin (v : UInt16) : pi.rangeCheckMin ≠ some v → ChangedInput pi 6 { pi with rangeCheckMin := some v }
  | rangeCheckMax (v : UInt16) : pi.rangeCheckMax ≠ some v → ChangedInput pi 7 { pi with rangeCheckMax := some v }

/-- The product that stands for the cells of a public memory in the permutation argument, for the challenges `z` and
`α`. -/
def memoryProduct (z α : FE) (memory : HMap FE FE) : FE := (memory.map fun e => z - (e.1 + α * e.2)).prod

end Verif.Spec
