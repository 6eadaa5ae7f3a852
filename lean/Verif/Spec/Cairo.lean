import Verif.Model.Field

/-!
# The Cairo machine

An independent statement of the Cairo machine (Cairo whitepaper, eprint 2021/1063, sections 4.4
and 4.5): how an instruction word is laid out and what one step does. Nothing here refers to the
model of the code.
-/

namespace Verif.Spec

/-- Fields of an instruction word (whitepaper figure 3): three 16-bit biased offsets followed by
15 flag bits. -/
structure Instr where
  offDst : Int
  offOp0 : Int
  offOp1 : Int
  dstReg : Nat
  op0Reg : Nat
  op1Src : Nat
  resLogic : Nat
  pcUpdate : Nat
  apUpdate : Nat
  opcode : Nat
  deriving DecidableEq, Repr

/-- The field of `len` bits at position `pos` of a word. -/
def bits (w pos len : Nat) : Nat := w / 2 ^ pos % 2 ^ len

/-- Reading the fields of a word. -/
def Instr.ofWord (w : Nat) : Instr where
  offDst := (bits w 0 16 : Int) - 2 ^ 15
  offOp0 := (bits w 16 16 : Int) - 2 ^ 15
  offOp1 := (bits w 32 16 : Int) - 2 ^ 15
  dstReg := bits w 48 1
  op0Reg := bits w 49 1
  op1Src := bits w 50 3
  resLogic := bits w 53 2
  pcUpdate := bits w 55 3
  apUpdate := bits w 58 2
  opcode := bits w 60 3

/-- The flag groups have a defined meaning (no "undefined behavior" entry of the whitepaper's
switches, looking at each group alone). -/
def Instr.GroupsLegal (i : Instr) : Prop :=
  (i.op1Src = 0 ∨ i.op1Src = 1 ∨ i.op1Src = 2 ∨ i.op1Src = 4) ∧
  (i.resLogic = 0 ∨ i.resLogic = 1 ∨ i.resLogic = 2) ∧
  (i.pcUpdate = 0 ∨ i.pcUpdate = 1 ∨ i.pcUpdate = 2 ∨ i.pcUpdate = 4) ∧
  (i.apUpdate = 0 ∨ i.apUpdate = 1 ∨ i.apUpdate = 2) ∧
  (i.opcode = 0 ∨ i.opcode = 1 ∨ i.opcode = 2 ∨ i.opcode = 4)

instance (i : Instr) : Decidable i.GroupsLegal := by unfold Instr.GroupsLegal; infer_instance

/-- The combinations of groups the whitepaper leaves undefined do not occur: a conditional jump has
`res_logic = 0`, `opcode = 0`, `ap_update ≠ 1`; a call has `ap_update = 0`. -/
def Instr.CombinationsLegal (i : Instr) : Prop :=
  (i.pcUpdate = 4 → i.resLogic = 0 ∧ i.opcode = 0 ∧ i.apUpdate ≠ 1) ∧
  (i.opcode = 1 → i.apUpdate = 0)

instance (i : Instr) : Decidable i.CombinationsLegal := by
  unfold Instr.CombinationsLegal; infer_instance

/-- Machine registers. -/
structure Regs where
  pc : FE
  ap : FE
  fp : FE

/-- Operands of an instruction at given registers in a memory (whitepaper section 4.5). -/
structure Operands where
  dstAddr : FE
  op0Addr : FE
  op1Addr : FE
  dst : FE
  op0 : FE
  op1 : FE

/-- Address base of op1. -/
def op1Base (i : Instr) (s : Regs) (op0 : FE) : FE :=
  if i.op1Src = 0 then op0 else if i.op1Src = 1 then s.pc else if i.op1Src = 2 then s.fp else s.ap

/-- The operands a step reads. -/
def operands (m : FE → FE) (i : Instr) (s : Regs) : Operands :=
  let dstAddr := (if i.dstReg = 0 then s.ap else s.fp) + (i.offDst : FE)
  let op0Addr := (if i.op0Reg = 0 then s.ap else s.fp) + (i.offOp0 : FE)
  let op1Addr := op1Base i s (m op0Addr) + (i.offOp1 : FE)
  { dstAddr, op0Addr, op1Addr, dst := m dstAddr, op0 := m op0Addr, op1 := m op1Addr }

/-- Size of the instruction in memory cells. -/
def instrSize (i : Instr) : FE := if i.op1Src = 1 then 2 else 1

/-- The result computed by the instruction (not used by conditional jumps). -/
def result (i : Instr) (o : Operands) : FE :=
  if i.resLogic = 1 then o.op0 + o.op1 else if i.resLogic = 2 then o.op0 * o.op1 else o.op1

/-- The new `pc`. -/
def nextPc (i : Instr) (s : Regs) (o : Operands) : FE :=
  if i.pcUpdate = 1 then result i o
  else if i.pcUpdate = 2 then s.pc + result i o
  else if i.pcUpdate = 4 then
    (if o.dst = 0 then s.pc + instrSize i else s.pc + o.op1)
  else s.pc + instrSize i

/-- The new `ap`. -/
def nextAp (i : Instr) (s : Regs) (o : Operands) : FE :=
  if i.opcode = 1 then s.ap + 2
  else if i.apUpdate = 1 then s.ap + result i o
  else if i.apUpdate = 2 then s.ap + 1
  else s.ap

/-- The new `fp`. -/
def nextFp (i : Instr) (s : Regs) (o : Operands) : FE :=
  if i.opcode = 1 then s.ap + 2 else if i.opcode = 2 then o.dst else s.fp

/-- The assertions an instruction makes: a call saves `fp` and the return address; an assert-equal
compares `dst` with the result. -/
def assertionsHold (i : Instr) (s : Regs) (o : Operands) : Prop :=
  (i.opcode = 1 → o.op0 = s.pc + instrSize i ∧ o.dst = s.fp) ∧
  (i.opcode = 4 → o.dst = result i o)

/-- One step of the machine on the instruction `i`. -/
structure StepInstr (m : FE → FE) (i : Instr) (s s' : Regs) : Prop where
  asserts : assertionsHold i s (operands m i s)
  pc : s'.pc = nextPc i s (operands m i s)
  ap : s'.ap = nextAp i s (operands m i s)
  fp : s'.fp = nextFp i s (operands m i s)

/-- The memory cell at `pc` holds an instruction with a defined meaning. -/
def LegalWord (w : FE) : Prop :=
  w.val < 2 ^ 63 ∧ (Instr.ofWord w.val).GroupsLegal ∧ (Instr.ofWord w.val).CombinationsLegal

/-- One step of the Cairo machine over the read-only memory `m`. -/
def Step (m : FE → FE) (s s' : Regs) : Prop :=
  LegalWord (m s.pc) ∧ StepInstr m (Instr.ofWord (m s.pc).val) s s'

end Verif.Spec
