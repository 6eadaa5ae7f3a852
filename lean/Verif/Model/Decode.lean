import Verif.Model.Bytes

/-!
# Instruction decoding

Models `src/cairo/decode/instruction_flags.rs` and `src/cairo/decode/instruction_offsets.rs`.
-/

namespace Verif

/-- `InstructionDecodingError` (src/cairo/errors.rs:11-29). -/
inductive InstructionDecodingError where
  | invalidOpcode
  | invalidPcUpdate
  | invalidApUpdate
  | invalidResLogic
  | invalidOp1Src
  | invalidOp0Reg
  | invalidDstReg
  | instructionNotFound
  deriving DecidableEq, Repr

/-- `aux_get_last_nim_of_field_element` (src/cairo/decode/instruction_flags.rs:21-36): the last
eight bytes of the 32-byte encoding, as a `u64`. -/
def lastNim (value : FE) : Nat := beNat ((feToBytesBe value).drop 24)

/-- `Op0Reg` (src/cairo/decode/instruction_flags.rs:80-84). -/
inductive Op0Reg where | ap | fp deriving DecidableEq, Repr
/-- `DstReg` (src/cairo/decode/instruction_flags.rs:113-117). -/
inductive DstReg where | ap | fp deriving DecidableEq, Repr
/-- `Op1Src` (src/cairo/decode/instruction_flags.rs:144-150). -/
inductive Op1Src where | op0 | imm | fp | ap deriving DecidableEq, Repr
/-- `ResLogic` (src/cairo/decode/instruction_flags.rs:180-187). -/
inductive ResLogic where | op1 | add | mul | unconstrained deriving DecidableEq, Repr
/-- `PcUpdate` (src/cairo/decode/instruction_flags.rs:218-224). -/
inductive PcUpdate where | regular | jump | jumpRel | jnz deriving DecidableEq, Repr
/-- `ApUpdate` (src/cairo/decode/instruction_flags.rs:254-261). -/
inductive ApUpdate where | regular | add | add1 | add2 deriving DecidableEq, Repr
/-- `CairoOpcode` (src/cairo/decode/instruction_flags.rs:307-313). -/
inductive CairoOpcode where | nop | call | ret | assertEq deriving DecidableEq, Repr

/-- The flag value standing for each `DstReg` (match arms of
src/cairo/decode/instruction_flags.rs:127-142). -/
def DstReg.code : DstReg → Nat | .ap => 0 | .fp => 1
/-- The flag value standing for each `Op0Reg` (match arms of
src/cairo/decode/instruction_flags.rs:95-111). -/
def Op0Reg.code : Op0Reg → Nat | .ap => 0 | .fp => 1
/-- The flag value standing for each `Op1Src` (match arms of
src/cairo/decode/instruction_flags.rs:163-178). -/
def Op1Src.code : Op1Src → Nat | .op0 => 0 | .imm => 1 | .fp => 2 | .ap => 4
/-- The flag value standing for each `ResLogic` (match arms of
src/cairo/decode/instruction_flags.rs:200-216). -/
def ResLogic.code : ResLogic → Nat | .op1 => 0 | .add => 1 | .mul => 2 | .unconstrained => 4
/-- The flag value standing for each `PcUpdate` (match arms of
src/cairo/decode/instruction_flags.rs:237-252). -/
def PcUpdate.code : PcUpdate → Nat | .regular => 0 | .jump => 1 | .jumpRel => 2 | .jnz => 4
/-- The flag value standing for each `ApUpdate` (match arms of
src/cairo/decode/instruction_flags.rs:274-289). -/
def ApUpdate.code : ApUpdate → Nat | .regular => 0 | .add => 1 | .add1 => 2 | .add2 => 4
/-- The flag value standing for each `CairoOpcode` (match arms of
src/cairo/decode/instruction_flags.rs:326-341). -/
def CairoOpcode.code : CairoOpcode → Nat | .nop => 0 | .call => 1 | .ret => 2 | .assertEq => 4

/-- `CairoInstructionFlags` (src/cairo/decode/instruction_flags.rs:38-47). -/
structure CairoInstructionFlags where
  opcode : CairoOpcode
  apUpdate : ApUpdate
  pcUpdate : PcUpdate
  resLogic : ResLogic
  op1Src : Op1Src
  op0Reg : Op0Reg
  dstReg : DstReg
  deriving DecidableEq, Repr

/-- The flag field `(flags & MASK) >> OFF` with `flags = word >> 48`
(src/cairo/decode/instruction_flags.rs:3-17 for the constants). The `as u8` cast keeps the value,
which is below 8. -/
def flagField (mask off : Nat) (value : FE) : Nat := ((lastNim value >>> 48) &&& mask) >>> off

/-- `Op0Reg::try_from` (src/cairo/decode/instruction_flags.rs:95-111). -/
def Op0Reg.decode (v : FE) : Outcome InstructionDecodingError Op0Reg :=
  let f := flagField 0x0002 1 v
  if f = 0 then .ok .ap else if f = 1 then .ok .fp else .err .invalidOp0Reg

/-- `DstReg::try_from` (src/cairo/decode/instruction_flags.rs:127-142). -/
def DstReg.decode (v : FE) : Outcome InstructionDecodingError DstReg :=
  let f := flagField 0x0001 0 v
  if f = 0 then .ok .ap else if f = 1 then .ok .fp else .err .invalidDstReg

/-- `Op1Src::try_from` (src/cairo/decode/instruction_flags.rs:163-178). -/
def Op1Src.decode (v : FE) : Outcome InstructionDecodingError Op1Src :=
  match flagField 0x001C 2 v with
  | 0 => .ok .op0
  | 1 => .ok .imm
  | 2 => .ok .fp
  | 4 => .ok .ap
  | _ => .err .invalidOp1Src

/-- `ResLogic::try_from` (src/cairo/decode/instruction_flags.rs:200-216). -/
def ResLogic.decode (v : FE) : Outcome InstructionDecodingError ResLogic :=
  match flagField 0x0060 5 v with
  | 0 => .ok .op1
  | 1 => .ok .add
  | 2 => .ok .mul
  | 4 => .ok .unconstrained
  | _ => .err .invalidResLogic

/-- `PcUpdate::try_from` (src/cairo/decode/instruction_flags.rs:237-252). -/
def PcUpdate.decode (v : FE) : Outcome InstructionDecodingError PcUpdate :=
  match flagField 0x0380 7 v with
  | 0 => .ok .regular
  | 1 => .ok .jump
  | 2 => .ok .jumpRel
  | 4 => .ok .jnz
  | _ => .err .invalidPcUpdate

/-- `ApUpdate::try_from` (src/cairo/decode/instruction_flags.rs:274-289). -/
def ApUpdate.decode (v : FE) : Outcome InstructionDecodingError ApUpdate :=
  match flagField 0x0C00 10 v with
  | 0 => .ok .regular
  | 1 => .ok .add
  | 2 => .ok .add1
  | 4 => .ok .add2
  | _ => .err .invalidApUpdate

/-- `CairoOpcode::try_from` (src/cairo/decode/instruction_flags.rs:326-341). -/
def CairoOpcode.decode (v : FE) : Outcome InstructionDecodingError CairoOpcode :=
  match flagField 0x7000 12 v with
  | 0 => .ok .nop
  | 1 => .ok .call
  | 2 => .ok .ret
  | 4 => .ok .assertEq
  | _ => .err .invalidOpcode

/-- `CairoInstructionFlags::try_from` (src/cairo/decode/instruction_flags.rs:291-305). -/
def CairoInstructionFlags.decode (v : FE) : Outcome InstructionDecodingError CairoInstructionFlags := do
  let opcode ← CairoOpcode.decode v
  let pcUpdate ← PcUpdate.decode v
  let apUpdate ← ApUpdate.decode v
  let resLogic ← ResLogic.decode v
  let op1Src ← Op1Src.decode v
  let op0Reg ← Op0Reg.decode v
  let dstReg ← DstReg.decode v
  return { opcode, pcUpdate, apUpdate, resLogic, op1Src, op0Reg, dstReg }

/-! ## Trace representation of the flags -/

/-- `Op0Reg::to_trace_representation` (src/cairo/decode/instruction_flags.rs:86-93). -/
def Op0Reg.toTrace : Op0Reg → FE | .ap => 0 | .fp => 1
/-- `DstReg::to_trace_representation` (src/cairo/decode/instruction_flags.rs:118-125). -/
def DstReg.toTrace : DstReg → FE | .ap => 0 | .fp => 1
/-- `Op1Src::to_trace_representation` (src/cairo/decode/instruction_flags.rs:152-161). -/
def Op1Src.toTrace : Op1Src → FE × FE × FE
  | .op0 => (0, 0, 0) | .imm => (0, 0, 1) | .fp => (0, 1, 0) | .ap => (1, 0, 0)
/-- `ResLogic::to_trace_representation` (src/cairo/decode/instruction_flags.rs:189-198);
`Unconstrained` is `todo!()`. -/
def ResLogic.toTrace : ResLogic → Outcome InstructionDecodingError (FE × FE)
  | .op1 => .ok (0, 0) | .add => .ok (0, 1) | .mul => .ok (1, 0) | .unconstrained => .panic
/-- `PcUpdate::to_trace_representation` (src/cairo/decode/instruction_flags.rs:226-235). -/
def PcUpdate.toTrace : PcUpdate → FE × FE × FE
  | .regular => (0, 0, 0) | .jump => (0, 0, 1) | .jumpRel => (0, 1, 0) | .jnz => (1, 0, 0)
/-- `ApUpdate::to_trace_representation` (src/cairo/decode/instruction_flags.rs:263-272);
`Add2` is `todo!()`. -/
def ApUpdate.toTrace : ApUpdate → Outcome InstructionDecodingError (FE × FE)
  | .regular => .ok (0, 0) | .add => .ok (0, 1) | .add1 => .ok (1, 0) | .add2 => .panic
/-- `CairoOpcode::to_trace_representation` (src/cairo/decode/instruction_flags.rs:315-324). -/
def CairoOpcode.toTrace : CairoOpcode → FE × FE × FE
  | .nop => (0, 0, 0) | .call => (0, 0, 1) | .ret => (0, 1, 0) | .assertEq => (1, 0, 0)

/-- `CairoInstructionFlags::to_trace_representation`
(src/cairo/decode/instruction_flags.rs:54-77). -/
def CairoInstructionFlags.toTrace (f : CairoInstructionFlags) :
    Outcome InstructionDecodingError (List FE) := do
  let b0 := f.dstReg.toTrace
  let b1 := f.op0Reg.toTrace
  let (b2, b3, b4) := f.op1Src.toTrace
  let (b5, b6) ← f.resLogic.toTrace
  let (b7, b8, b9) := f.pcUpdate.toTrace
  let (b10, b11) ← f.apUpdate.toTrace
  let (b12, b13, b14) := f.opcode.toTrace
  return [b0, b1, b4, b3, b2, b6, b5, b9, b8, b7, b11, b10, b14, b13, b12, 0]

/-! ## Offsets -/

/-- `InstructionOffsets` (src/cairo/decode/instruction_offsets.rs:11-16). -/
structure InstructionOffsets where
  offDst : Int
  offOp0 : Int
  offOp1 : Int
  deriving DecidableEq, Repr

/-- `i16::from_le_bytes` (Rust core). Used at src/cairo/decode/instruction_offsets.rs:34. -/
def i16OfBytes (lo hi : Nat) : Int :=
  let u := lo + 256 * hi
  if u < 2 ^ 15 then (u : Int) else (u : Int) - 2 ^ 16

/-- `InstructionOffsets::decode_offset` (src/cairo/decode/instruction_offsets.rs:27-35). -/
def decodeOffset (v : FE) (instructionOffset : Nat) : Int :=
  let offset := (lastNim v >>> instructionOffset) &&& 0xFFFF
  let byte0 := offset % 256
  let byte1 := offset / 256 % 256
  -- `overflowing_sub(128).0` on a byte
  i16OfBytes byte0 ((byte1 + 256 - 128) % 256)

/-- `InstructionOffsets::new` (src/cairo/decode/instruction_offsets.rs:19-25). -/
def InstructionOffsets.new (v : FE) : InstructionOffsets :=
  { offDst := decodeOffset v 0, offOp0 := decodeOffset v 16, offOp1 := decodeOffset v 32 }

/-- `to_unbiased_representation` (src/cairo/decode/instruction_offsets.rs:49-56). In the negative
branch `b15 - n.unsigned_abs()` underflows (panics in debug builds) only for `n < -2^15`, which
`decode_offset` never produces. -/
def toUnbiased (n : Int) : FE :=
  if n < 0 then ((2 ^ 15 - n.natAbs : Nat) : FE) else ((n.toNat + 2 ^ 15 : Nat) : FE)

/-- `InstructionOffsets::to_trace_representation`
(src/cairo/decode/instruction_offsets.rs:37-43). -/
def InstructionOffsets.toTrace (o : InstructionOffsets) : List FE :=
  [toUnbiased o.offDst, toUnbiased o.offOp0, toUnbiased o.offOp1]

end Verif
