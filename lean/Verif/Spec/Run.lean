import Verif.Spec.Cairo
import Verif.Spec.Decode
import Verif.Model.CairoImport
import Verif.Model.PublicInputs

/-!
# Relating the prover's inputs to the Cairo machine
-/

namespace Verif.Spec

/-- The total memory function `m` agrees with the memory file: every recorded cell (a 64-bit
address) holds the recorded value. -/
def Holds (mem : CairoMemory) (m : FE → FE) : Prop :=
  ∀ a v, mem.get? a = some v → a < 2 ^ 64 ∧ m (a : FE) = v

/-- The machine registers of a trace entry. -/
def regsOf (t : RegistersState) : Regs := ⟨(t.pc : FE), (t.ap : FE), (t.fp : FE)⟩

/-- The instruction at `pc`. -/
def instrAt (m : FE → FE) (s : Regs) : Instr := Instr.ofWord (m s.pc).val

/-- The operands of the instruction at `pc`. -/
def operandsAt (m : FE → FE) (s : Regs) : Operands := operands m (instrAt m s) s

/-- Addresses computed from a memory value stay in the 64-bit address space: when the address of
op1 is computed from op0, op0 is a 64-bit number. (A Cairo run only dereferences addresses.) -/
def Op0IsAddress (m : FE → FE) (s : Regs) : Prop :=
  (instrAt m s).op1Src = 0 → (operandsAt m s).op0.val < 2 ^ 64

/-- The memory file records a value at the address `x`. -/
def Recorded (mem : CairoMemory) (x : FE) : Prop := ∃ n v, mem.get? n = some v ∧ (n : FE) = x

/-- The memory file records every cell the instruction at `s` touches. -/
def AccessesRecorded (mem : CairoMemory) (m : FE → FE) (s : Regs) : Prop :=
  Recorded mem s.pc ∧ Recorded mem (operandsAt m s).dstAddr ∧
    Recorded mem (operandsAt m s).op0Addr ∧ Recorded mem (operandsAt m s).op1Addr

/-- The registers are 64-bit numbers and the instruction at `pc` ends below `2^64`. -/
def Registers64 (t : RegistersState) : Prop :=
  t.pc + 2 < 2 ^ 64 ∧ t.ap < 2 ^ 64 ∧ t.fp < 2 ^ 64

/-- The inputs of the prover come from a run of the Cairo machine: the register trace lists the
states of consecutive steps (the last entry can make a step too), and the memory file records every
cell they touch. -/
structure HonestRun (mem : CairoMemory) (m : FE → FE) (states : List RegistersState) : Prop where
  holds : Holds mem m
  nonempty : states ≠ []
  regs : ∀ t ∈ states, Registers64 t
  recorded : ∀ t ∈ states, AccessesRecorded mem m (regsOf t)
  addr : ∀ t ∈ states, Op0IsAddress m (regsOf t)
  steps : ∀ i t t', states[i]? = some t → states[i + 1]? = some t' → Step m (regsOf t) (regsOf t')
  last : ∀ t, states.getLast? = some t → ∃ s', Step m (regsOf t) s'

/-- An address touched by the run. -/
def Accessed (m : FE → FE) (states : List RegistersState) (x : FE) : Prop :=
  ∃ t ∈ states, x = (regsOf t).pc ∨ x = (operandsAt m (regsOf t)).dstAddr ∨
    x = (operandsAt m (regsOf t)).op0Addr ∨ x = (operandsAt m (regsOf t)).op1Addr

/-- The values of the range-check builtin segment are recorded and below `2^128`. -/
def BuiltinValues (mem : CairoMemory) (segs : MemorySegmentMap) : Prop :=
  ∀ s e, segs.get? .rangeCheck = some (s, e) → ∀ n, s ≤ n → n < e →
    ∃ v, mem.get? n = some v ∧ v.val < 2 ^ 128

/-- The output range lies after the program, in the 64-bit address space. -/
def OutputAfterProgram (programSize : Nat) (segments : MemorySegmentMap) : Prop :=
  ∀ s e, segments.get? .output = some (s, e) → programSize < s ∧ s ≤ e ∧ e < 2 ^ 64

/-- The address belongs to the program or to the output segment. -/
def IsPublic (programSize : Nat) (segments : MemorySegmentMap) (n : Nat) : Prop :=
  (1 ≤ n ∧ n ≤ programSize) ∨ ∃ s e, segments.get? .output = some (s, e) ∧ s ≤ n ∧ n < e

/-- The number of cells of the output segment. -/
def outputCells (segs : MemorySegmentMap) : Nat :=
  match segs.get? .output with
  | some (s, e) => e - s
  | none => 0

/-- An address that the run touches, or a public one, lies beyond `n`. -/
def UsedBeyond (m : FE → FE) (states : List RegistersState) (size : Nat) (segs : MemorySegmentMap) (n : Nat) : Prop :=
  (∃ x, Accessed m states x ∧ n < x.val) ∨ ∃ b, IsPublic size segs b ∧ n < b

/-- The prover fills up the addresses below a touched one that the run does not touch, except as many after address
zero as there are public cells. -/
def FilledUp (m : FE → FE) (states : List RegistersState) (size : Nat) (segs : MemorySegmentMap) (n : Nat) : Prop :=
  size + outputCells segs < n ∧ ∃ x, Accessed m states x ∧ n < x.val

/-- Every address below a used one is touched by the run, is public, or is filled up by the prover. -/
def NoGap (m : FE → FE) (states : List RegistersState) (size : Nat) (segs : MemorySegmentMap) : Prop :=
  ∀ n : Nat, 0 < n → UsedBeyond m states size segs n →
    Accessed m states (n : FE) ∨ IsPublic size segs n ∨ FilledUp m states size segs n

/-- The conditions on a run with an output segment: no address is left out, and the run touches the output cells that
the prover would otherwise fill up (it fills up cells with values of its own). Without an output segment they hold
(`covered_of_no_output`). -/
structure OutputCovered (m : FE → FE) (states : List RegistersState) (size : Nat)
    (segs : MemorySegmentMap) : Prop where
  noGap : NoGap m states size segs
  touched : ∀ n, IsPublic size segs n → FilledUp m states size segs n → Accessed m states (n : FE)

end Verif.Spec
