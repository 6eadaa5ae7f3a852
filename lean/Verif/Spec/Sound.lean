import Verif.Spec.CairoTrace
import Verif.Spec.Cairo

/-!
# What an accepted claim is expected to mean

`ClaimTrue` is the statement that public inputs make about the Cairo machine. `FixedTrace` describes a prover
whose traces for many challenges agree with one trace except in the running products.
-/

namespace Verif.Spec
open Verif.CairoAir

/-- The claim of the public inputs: some read-only memory with the public cells has a run of the claimed
length that starts at the claimed registers and ends at the claimed `pc` and `ap`. -/
def ClaimTrue (pi : PublicInputs) : Prop :=
  ∃ (m : FE → FE) (s : Nat → Regs), (∀ e ∈ pi.publicMemory, m e.1 = e.2) ∧
    (∀ i, i + 1 < pi.numSteps → Step m (s i) (s (i + 1))) ∧
    ((s 0).pc = pi.pcInit ∧ (s 0).ap = pi.apInit ∧ (s 0).fp = pi.fpInit) ∧
    (s (pi.numSteps - 1)).pc = pi.pcFinal ∧ (s (pi.numSteps - 1)).ap = pi.apFinal

/-- What the constraints of the Cairo AIR force in the main columns alone: the first row and the row of the last step
have the public `pc` and `ap`, and every row whose selector is not zero is followed by the successor state of the
Cairo machine, in any memory that agrees with the four accesses of the row, provided its offsets are 16-bit values
and its instruction word has a defined meaning. -/
structure SelectedRun (pi : PublicInputs) (rows : List (List FE)) : Prop where
  first : (regsAt rows 0).pc = pi.pcInit ∧ (regsAt rows 0).ap = pi.apInit
  last : (regsAt rows (pi.numSteps - 1)).pc = pi.pcFinal ∧ (regsAt rows (pi.numSteps - 1)).ap = pi.apFinal
  steps : ∀ (m : FE → FE) (i : Nat), i + 1 < rows.length → cell rows i FRAME_SELECTOR ≠ 0 →
    (∀ k < 3, (offset rows (3 * i + k)).val < 2 ^ 16) →
    (∀ k < 4, m (access rows (4 * i + k)).1 = (access rows (4 * i + k)).2) →
    LegalWord (m (regsAt rows i).pc) → Step m (regsAt rows i) (regsAt rows (i + 1))

/-- The memory running product starts at the quotient of the first factors. -/
def Anchored (hasRc : Bool) (rows : List (List FE)) (ch : RAPChallenges FE) : Prop :=
  (ch.zMemory - ((sortedAccess hasRc rows 0).1 + ch.alphaMemory * (sortedAccess hasRc rows 0).2)) *
    runningProduct hasRc rows 0 =
  ch.zMemory - ((access rows 0).1 + ch.alphaMemory * (access rows 0).2)

/-- For every `α` in `A`, `z` in `Z α` and `r` in `R`, the trace `rows α z r` is accepted for the challenges
`α, z, r`, its memory product is anchored, and it agrees with `base` on all columns but the last seven, which
hold the running products. The sets of challenges are larger than the numbers of challenges for which two
different multisets of accesses or offsets can have equal products. -/
structure FixedTrace (pi : PublicInputs) (opts : ProofOptions) (base : List (List FE)) (A : Finset FE)
    (Z : FE → Finset FE) (R : Finset FE) (rows : FE → FE → FE → List (List FE)) : Prop where
  manyA : (2 * (4 * base.length + pi.publicMemory.length)) ^ 2 < A.card
  manyZ : ∀ α ∈ A, 4 * base.length + pi.publicMemory.length < (Z α).card
  manyR : 3 * base.length < R.card
  accepted : ∀ α ∈ A, ∀ z ∈ Z α, ∀ r ∈ R, Accepted pi opts (rows α z r) ⟨α, z, r⟩
  anchored : ∀ α ∈ A, ∀ z ∈ Z α, ∀ r ∈ R, Anchored (hasRcBuiltin pi) (rows α z r) ⟨α, z, r⟩
  length : ∀ α ∈ A, ∀ z ∈ Z α, ∀ r ∈ R, (rows α z r).length = base.length
  same : ∀ α ∈ A, ∀ z ∈ Z α, ∀ r ∈ R, ∀ i c, c + 7 < traceColumns (hasRcBuiltin pi) →
    cell (rows α z r) i c = cell base i c

end Verif.Spec
