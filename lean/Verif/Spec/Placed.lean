import Verif.Spec.Run

/-! Which public inputs the prover can put into a table. -/

namespace Verif.Spec

/-- The prover can put the public memory in the place of the last accesses of a table of `rows` rows, four accesses
each: there are enough of them, and every address that it expects has a value. It expects the addresses of the output
range if there is one, and those from one on for the other cells. -/
structure Placeable (pi : PublicInputs) (rows : Nat) : Prop where
  fits : pi.publicMemory.length ≤ 4 * rows
  output : ∀ s e, pi.memorySegments.get? .output = some (s, e) → s ≤ e ∧ e - s ≤ pi.publicMemory.length
  cells : ∀ n : Nat, IsPublic (pi.publicMemory.length - outputCells pi.memorySegments) pi.memorySegments n →
    ∃ v, pi.publicMemory.get? (n : FE) = some v

end Verif.Spec
