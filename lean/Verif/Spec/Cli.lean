import Verif.Spec.Run
import Verif.Model.Cli

/-!
# What the virtual machine is expected to leave behind
-/

namespace Verif.Spec
open Runner

/-- The address of the first cell of segment `idx` in the relocated memory: the segments follow each other
from address 1 on. -/
def segmentBase (r : VmRun) (idx : Nat) : Nat :=
  1 + ((List.range idx).map fun i => (r.segmentSize i).getD 0).sum

/-- The first address of the range-check segment and the address after its last used cell. -/
def IsRangeCheckRange (r : VmRun) (range : Option (Nat × Nat)) : Prop :=
  (r.rangeCheckBuiltin = none → range = none) ∧
  ∀ idx stop, r.rangeCheckBuiltin = some (idx, stop) →
    range = some (segmentBase r idx, segmentBase r idx + stop.getD 0)

/-- The memory map holds exactly the defined cells of the relocated memory. -/
def MemoryOf (r : VmRun) (mem : CairoMemory) : Prop :=
  ∀ a, mem.get? a = (r.relocatedMemory[a]?).join

/-- The numbers in the virtual machine's output fit in 64 bits (the machine types of the Rust code). -/
structure MachineRun (r : VmRun) (states : List RegistersState) : Prop where
  trace : r.relocatedTrace = some states
  regs : ∀ t ∈ states, t.ap < 2 ^ 64 ∧ t.fp < 2 ^ 64 ∧ t.pc < 2 ^ 64
  cells : r.relocatedMemory.length ≤ 2 ^ 64
  range : ∀ idx stop, r.rangeCheckBuiltin = some (idx, stop) → segmentBase r idx + stop.getD 0 < 2 ^ 64

/-- The virtual machine did its job: the trace and the memory are those of a run of the Cairo machine with
memory `m`, address 0 is unused, the program occupies the addresses 1 to `dataLen`, the run passes through
it, and the used cells of the range-check segment hold values below `2^128`. -/
structure HonestVmRun (r : VmRun) (m : FE → FE) (states : List RegistersState) : Prop extends
    MachineRun r states where
  run : ∃ mem, MemoryOf r mem ∧ HonestRun mem m states
  zero : (r.relocatedMemory[0]?).join = none
  size : r.dataLen < 2 ^ 64
  pc : ∃ t ∈ states, t.pc ≤ r.dataLen
  builtin : ∀ idx stop, r.rangeCheckBuiltin = some (idx, stop) → ∀ n, segmentBase r idx ≤ n →
    n < segmentBase r idx + stop.getD 0 → ∃ v, (r.relocatedMemory[n]?).join = some v ∧ v.val < 2 ^ 128

end Verif.Spec
