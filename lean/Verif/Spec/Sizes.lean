import Verif.Model.PublicInputs

/-!
# Values that fit in their machine types

What the Rust types of the proof and of the public inputs guarantee and the model's natural numbers
and association lists do not.
-/

namespace Verif

/-- Values of `usize`/`u64` fields are 64-bit and the maps have unique keys: true of every Rust
value of the type. -/
structure PublicInputs.WF (p : PublicInputs) : Prop where
  segs_wf : p.memorySegments.WF
  segs_lt : ∀ e ∈ p.memorySegments, e.2.1 < 2 ^ 64 ∧ e.2.2 < 2 ^ 64
  mem_wf : p.publicMemory.WF
  steps_lt : p.numSteps < 2 ^ 64

namespace Props

/-- The integer fields of a proof fit in the machine types of the Rust structure
(`usize`, `u64`): true of every Rust value. -/
structure MachineSized (p : StarkProof FE) : Prop where
  traceLength : p.traceLength < 2 ^ 64
  nonce : p.nonce < 2 ^ 64
  rowWidth : p.traceOodFrameEvaluations.rowWidth < 2 ^ 64

end Props
end Verif
