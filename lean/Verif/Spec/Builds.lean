import Verif.Model.ExecutionTrace

/-!
# Where the builds of the prover differ
-/

namespace Verif.ExecTrace

/-- The state is about to execute a call whose return address does not fit in 64 bits. A call takes two words when it
has an immediate operand and one word otherwise. -/
def CallOverflows (mem : CairoMemory) (t : RegistersState) : Prop :=
  ∃ f o, instructionFlagsAndOffsets mem t = .ok (f, o) ∧ f.opcode = .call ∧
    2 ^ 64 ≤ t.pc + if f.op1Src = .imm then 2 else 1

/-- Public inputs that the code can represent: the numbers in them are of type `u64` or `usize`. -/
structure Representable (pi : PublicInputs) : Prop where
  steps : pi.numSteps < 2 ^ 64
  memory : pi.publicMemory.length < 2 ^ 64
  output : ∀ start stop, pi.memorySegments.get? .output = some (start, stop) → start < 2 ^ 64 ∧ stop < 2 ^ 64

end Verif.ExecTrace
