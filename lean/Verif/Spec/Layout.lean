import Verif.Spec.Cairo
import Verif.Model.ExecutionTrace

/-!
# When a run can be laid out as a trace

Conditions on the registers of a step and on the memory of a run. Only the data types of the code are used, none
of its functions.
-/

namespace Verif.Spec

/-- The cell at distance `off` from `base` has an address of 64 bits, and the memory holds `v` there. -/
def CellHolds (mem : CairoMemory) (base : Nat) (off : Int) (v : FE) : Prop :=
  ∃ a : Nat, (a : Int) = base + off ∧ a < 2 ^ 64 ∧ mem.get? a = some v

/-- The step can be laid out: there is an instruction at `pc` whose flags have a meaning and, if it is a
conditional jump, are those of a conditional jump; the return address of a call has 64 bits; and the memory has
the three operands, where an operand relative to the first one is found at the low 64 bits of its value. -/
def StepLaidOut (mem : CairoMemory) (t : RegistersState) : Prop :=
  ∃ w, mem.get? t.pc = some w ∧ (Instr.ofWord w.val).GroupsLegal ∧
    ((Instr.ofWord w.val).pcUpdate = 4 →
      (Instr.ofWord w.val).resLogic = 0 ∧ (Instr.ofWord w.val).opcode = 0 ∧ (Instr.ofWord w.val).apUpdate ≠ 1) ∧
    ((Instr.ofWord w.val).opcode = 1 → t.pc + (if (Instr.ofWord w.val).op1Src = 1 then 2 else 1) < 2 ^ 64) ∧
    (∃ dst, CellHolds mem (if (Instr.ofWord w.val).dstReg = 0 then t.ap else t.fp) (Instr.ofWord w.val).offDst dst) ∧
    ∃ op0, CellHolds mem (if (Instr.ofWord w.val).op0Reg = 0 then t.ap else t.fp) (Instr.ofWord w.val).offOp0 op0 ∧
      ∃ op1, CellHolds mem
        (if (Instr.ofWord w.val).op1Src = 0 then op0.val % 2 ^ 64
          else if (Instr.ofWord w.val).op1Src = 1 then t.pc
          else if (Instr.ofWord w.val).op1Src = 2 then t.fp else t.ap) (Instr.ofWord w.val).offOp1 op1

/-- The run can be laid out: it has a step, every step can be laid out, and every cell of the segment of the
range-check builtin is in the memory. -/
def RunLaidOut (states : List RegistersState) (mem : CairoMemory) (segments : MemorySegmentMap) : Prop :=
  states ≠ [] ∧ (∀ t ∈ states, StepLaidOut mem t) ∧
    ∀ s e, segments.get? .rangeCheck = some (s, e) → ∀ n, s ≤ n → n < e → ∃ v, mem.get? n = some v

/-- The addresses of the public memory in the order in which they are written into the trace: those of the program,
which starts at address 1, and those of the output segment. -/
def publicAddresses (len : Nat) : Option (Nat × Nat) → List Nat
  | none => List.range' 1 len
  | some (s, e) => List.range' 1 (len - (e - s)) ++ List.range' s (e - s)

/-- The auxiliary columns can be built for a main trace, which has four accesses in a row (addresses from column 19
on, values from column 23 on) and three offsets (from column 27 on): the accesses have room for the public memory;
the output segment is a range no longer than it; every public address has a value; and no factor of the
denominators is zero, neither for the accesses that remain, nor for the public cells that replace the last ones,
nor for the low 16 bits of the offsets. -/
structure AuxLaidOut (pi : PublicInputs) (rows : List (List FE)) (ch : CairoAir.RAPChallenges FE) : Prop where
  room : pi.publicMemory.length ≤ 4 * rows.length
  segment : ∀ s e, pi.memorySegments.get? .output = some (s, e) → s ≤ e ∧ e - s ≤ pi.publicMemory.length
  cells : ∀ n ∈ publicAddresses pi.publicMemory.length (pi.memorySegments.get? .output),
    ∃ v, pi.publicMemory.get? (n : FE) = some v ∧ ch.zMemory ≠ n + ch.alphaMemory * v
  accesses : ∀ j < 4 * rows.length - pi.publicMemory.length, ch.zMemory ≠
    (rows.getD (j / 4) []).getD (19 + j % 4) 0 + ch.alphaMemory * (rows.getD (j / 4) []).getD (23 + j % 4) 0
  offsets : ∀ r ∈ rows, ∀ k < 3, ch.zRangeCheck ≠ (((r.getD (27 + k) 0).val % 2 ^ 16 : Nat) : FE)

end Verif.Spec
