import Verif.Lemmas.Decode
import Verif.Spec.Decode

/-!
# Properties of instruction decoding: C12, C13, C14
-/

namespace Verif.Props
open Verif.Spec

/-- **C12.** Decoding the flags of a word succeeds exactly when every flag group of the word holds
a value the Cairo specification defines; it never panics; and each decoded enum is the one whose
code stands in the corresponding bits. -/
theorem C12_flags_decode (v : FE) :
    CairoInstructionFlags.decode v ≠ .panic ∧
    ((∃ f, CairoInstructionFlags.decode v = .ok f) ↔ (Instr.ofWord v.val).GroupsLegal) ∧
    ∀ f, CairoInstructionFlags.decode v = .ok f →
      f.dstReg.code = (Instr.ofWord v.val).dstReg ∧
      f.op0Reg.code = (Instr.ofWord v.val).op0Reg ∧
      f.op1Src.code = (Instr.ofWord v.val).op1Src ∧
      f.resLogic.code = (Instr.ofWord v.val).resLogic ∧
      f.pcUpdate.code = (Instr.ofWord v.val).pcUpdate ∧
      f.apUpdate.code = (Instr.ofWord v.val).apUpdate ∧
      f.opcode.code = (Instr.ofWord v.val).opcode := by
  refine ⟨decode_ne_panic v, ?_, fun f h => (flags_decode_ok v f).1 h⟩
  simp only [flags_decode_ok, Instr.GroupsLegal, Instr.ofWord]
  have h48 := bits_lt v.val 48 1
  have h49 := bits_lt v.val 49 1
  have h53 := bits_lt v.val 53 2
  have h58 := bits_lt v.val 58 2
  generalize bits v.val 48 1 = a at *
  generalize bits v.val 49 1 = b at *
  generalize bits v.val 50 3 = c at *
  generalize bits v.val 53 2 = d at *
  generalize bits v.val 55 3 = e at *
  generalize bits v.val 58 2 = g at *
  generalize bits v.val 60 3 = h at *
  constructor
  · rintro ⟨f, -, -, h3, h4, h5, h6, h7⟩
    subst h3 h4 h5 h6 h7
    refine ⟨?_, ?_, ?_, ?_, ?_⟩
    · cases f.op1Src <;> simp [Op1Src.code]
    · revert h53; cases f.resLogic <;> simp [ResLogic.code]
    · cases f.pcUpdate <;> simp [PcUpdate.code]
    · revert h58; cases f.apUpdate <;> simp [ApUpdate.code]
    · cases f.opcode <;> simp [CairoOpcode.code]
  · rintro ⟨hc, hd, he, hg, hh⟩
    have ha : ∃ r : DstReg, r.code = a := by
      interval_cases a
      · exact ⟨.ap, rfl⟩
      · exact ⟨.fp, rfl⟩
    have hb : ∃ r : Op0Reg, r.code = b := by
      interval_cases b
      · exact ⟨.ap, rfl⟩
      · exact ⟨.fp, rfl⟩
    have hc' : ∃ r : Op1Src, r.code = c := by
      rcases hc with rfl | rfl | rfl | rfl
      exacts [⟨.op0, rfl⟩, ⟨.imm, rfl⟩, ⟨.fp, rfl⟩, ⟨.ap, rfl⟩]
    have hd' : ∃ r : ResLogic, r.code = d := by
      rcases hd with rfl | rfl | rfl
      exacts [⟨.op1, rfl⟩, ⟨.add, rfl⟩, ⟨.mul, rfl⟩]
    have he' : ∃ r : PcUpdate, r.code = e := by
      rcases he with rfl | rfl | rfl | rfl
      exacts [⟨.regular, rfl⟩, ⟨.jump, rfl⟩, ⟨.jumpRel, rfl⟩, ⟨.jnz, rfl⟩]
    have hg' : ∃ r : ApUpdate, r.code = g := by
      rcases hg with rfl | rfl | rfl
      exacts [⟨.regular, rfl⟩, ⟨.add, rfl⟩, ⟨.add1, rfl⟩]
    have hh' : ∃ r : CairoOpcode, r.code = h := by
      rcases hh with rfl | rfl | rfl | rfl
      exacts [⟨.nop, rfl⟩, ⟨.call, rfl⟩, ⟨.ret, rfl⟩, ⟨.assertEq, rfl⟩]
    obtain ⟨ra, ha⟩ := ha
    obtain ⟨rb, hb⟩ := hb
    obtain ⟨rc, hc⟩ := hc'
    obtain ⟨rd, hd⟩ := hd'
    obtain ⟨re, he⟩ := he'
    obtain ⟨rg, hg⟩ := hg'
    obtain ⟨rh, hh⟩ := hh'
    exact ⟨⟨rh, rg, re, rd, rc, rb, ra⟩, ha, hb, hc, hd, he, hg, hh⟩

/-- A word that decodes (`assert [ap] = 1; ap++`) and one that does not (opcode bits `011`). -/
example : (∃ f, CairoInstructionFlags.decode (0x480680017fff8000 : FE) = .ok f) ∧
    ¬ ∃ f, CairoInstructionFlags.decode (0x380680017fff8000 : FE) = .ok f := by
  rw [(C12_flags_decode _).2.1, (C12_flags_decode _).2.1]
  constructor
  · decide +kernel
  · decide +kernel

/-- **C13.** The decoded offsets are the three biased 16-bit fields of the word, minus `2^15`, and
writing them back in biased form gives the fields again. -/
theorem C13_offsets_decode (v : FE) :
    InstructionOffsets.new v =
      ⟨(Instr.ofWord v.val).offDst, (Instr.ofWord v.val).offOp0, (Instr.ofWord v.val).offOp1⟩ ∧
    (InstructionOffsets.new v).toTrace =
      [((v.val % 2 ^ 16 : Nat) : FE), ((v.val / 2 ^ 16 % 2 ^ 16 : Nat) : FE),
        ((v.val / 2 ^ 32 % 2 ^ 16 : Nat) : FE)] := by
  have h0 := decodeOffset_eq v 0 (by decide)
  have h1 := decodeOffset_eq v 16 (by decide)
  have h2 := decodeOffset_eq v 32 (by decide)
  constructor
  · simp only [InstructionOffsets.new, h0, h1, h2, Instr.ofWord]
  · simp only [InstructionOffsets.new, InstructionOffsets.toTrace, h0, h1, h2]
    rw [toUnbiased_eq _ (bits_lt _ _ _), toUnbiased_eq _ (bits_lt _ _ _),
      toUnbiased_eq _ (bits_lt _ _ _)]
    simp [bits]

/-- The offsets of `ret` (`0x208b7fff7fff7ffe`) are `-2, -1, -1`. -/
example : InstructionOffsets.new (0x208b7fff7fff7ffe : FE) = ⟨-2, -1, -1⟩ := by
  rw [(C13_offsets_decode _).1]; decide +kernel

/-- **C14.** The sixteen flag cells of a decoded word are bits 48..62 of the word followed by a
zero, and flags and offsets together pack back to the word exactly when the word has no bit above
bit 62 set. Words that decode always have a trace representation (the `todo!()` arms are never
reached). -/
theorem C14_flags_and_offsets_pack (v : FE) (f : CairoInstructionFlags)
    (h : CairoInstructionFlags.decode v = .ok f) :
    ∃ cells, f.toTrace = .ok cells ∧ cells.length = 16 ∧
      (∀ j, j < 15 → cells[j]? = some (if v.val.testBit (48 + j) then 1 else 0)) ∧
      cells[15]? = some 0 ∧
      (packed cells (InstructionOffsets.new v).toTrace = v ↔ v.val < 2 ^ 63) := by
  refine ⟨_, flags_toTrace v f h, by simp, ?_, by simp, ?_⟩
  · intro j hj
    rw [List.getElem?_append_left (by simpa using hj)]
    simp [hj, flagBit]
  · have hp : packed ((List.range 15).map (flagBit v.val) ++ [0]) (InstructionOffsets.new v).toTrace
        = ((v.val % 2 ^ 63 : Nat) : FE) := by
      rw [← word_parts, (C13_offsets_decode v).2]
      simp only [Nat.cast_add, Nat.cast_mul]
      rw [← sum_flagBits]
      have hs : ((List.range 15).map fun i => (2 : FE) ^ i *
          ((List.range 15).map (flagBit v.val) ++ [0]).getD i 0) =
          (List.range 15).map fun i => (2 : FE) ^ i * flagBit v.val i := by
        apply List.map_congr_left
        intro i hi
        rw [List.mem_range] at hi
        rw [List.getD_eq_getElem?_getD, List.getElem?_append_left (by simpa using hi)]
        simp [hi]
      unfold packed
      rw [hs]
      simp only [List.getD_cons_zero, List.getD_cons_succ, Nat.cast_pow, Nat.cast_ofNat]
    rw [hp]
    conv_lhs => rhs; rw [← ZMod.natCast_zmod_val v]
    have hlt : v.val % 2 ^ 63 < P :=
      lt_trans (Nat.mod_lt _ (by positivity)) (lt_trans (by norm_num) P_gt)
    rw [natCast_inj_of_lt hlt (ZMod.val_lt v)]
    constructor
    · intro h; rw [← h]; exact Nat.mod_lt _ (by positivity)
    · exact Nat.mod_eq_of_lt

/-- The word of `assert [ap] = 1; ap++` decodes and packs back. -/
example : ∃ f, CairoInstructionFlags.decode (0x480680017fff8000 : FE) = .ok f ∧
    (0x480680017fff8000 : FE).val < 2 ^ 63 := by
  refine ⟨⟨.assertEq, .add1, .regular, .op1, .imm, .fp, .ap⟩, ?_, by decide +kernel⟩
  decide +kernel

/-- A word with bit 63 set decodes although it is not what its flags and offsets pack to. -/
example : ∃ f, CairoInstructionFlags.decode (0xc80680017fff8000 : FE) = .ok f ∧
    ¬ (0xc80680017fff8000 : FE).val < 2 ^ 63 := by
  refine ⟨⟨.assertEq, .add1, .regular, .op1, .imm, .fp, .ap⟩, ?_, by decide +kernel⟩
  decide +kernel

end Verif.Props
