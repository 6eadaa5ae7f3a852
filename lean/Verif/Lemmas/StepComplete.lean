import Verif.Lemmas.StepSound

/-! The row of an honest step satisfies the execution constraints. -/

namespace Verif.CairoAir
open Spec

/-- Flag bit `j` of a word, as a number. -/
def fbit (w j : Nat) : Nat := w / 2 ^ (48 + j) % 2

theorem fbit_cases (w j : Nat) : fbit w j = 0 ∨ fbit w j = 1 := Nat.mod_two_eq_zero_or_one _

theorem flagBit_eq (w j : Nat) : flagBit w j = (fbit w j : FE) := by
  unfold flagBit fbit
  rw [Nat.testBit_eq_decide_div_mod_eq]
  rcases Nat.mod_two_eq_zero_or_one (w / 2 ^ (48 + j)) with h | h <;> simp [h]

theorem ofWord_fbit (w : Nat) :
    Instr.ofWord w = ⟨(bits w 0 16 : Int) - 2 ^ 15, (bits w 16 16 : Int) - 2 ^ 15,
      (bits w 32 16 : Int) - 2 ^ 15, fbit w 0, fbit w 1,
      fbit w 2 + 2 * fbit w 3 + 4 * fbit w 4, fbit w 5 + 2 * fbit w 6,
      fbit w 7 + 2 * fbit w 8 + 4 * fbit w 9, fbit w 10 + 2 * fbit w 11,
      fbit w 12 + 2 * fbit w 13 + 4 * fbit w 14⟩ := by
  simp only [Instr.ofWord, Instr.mk.injEq, true_and]
  simp only [bits, fbit]
  norm_num
  refine ⟨?_, ?_, ?_, ?_, ?_⟩ <;> omega

theorem word_nested (w : Nat) (hw : w < 2 ^ 63) :
    bits w 0 16 + 2 ^ 16 * bits w 16 16 + 2 ^ 32 * bits w 32 16 + 2 ^ 48 *
      (fbit w 0 + 2 * (fbit w 1 + 2 * (fbit w 2 + 2 * (fbit w 3 + 2 *
      (fbit w 4 + 2 * (fbit w 5 + 2 * (fbit w 6 + 2 * (fbit w 7 + 2 * (fbit w 8 + 2 *
      (fbit w 9 + 2 * (fbit w 10 + 2 * (fbit w 11 + 2 *
      (fbit w 12 + 2 * (fbit w 13 + 2 * fbit w 14)))))))))))))) = w := by
  simp only [bits, fbit]
  norm_num at hw ⊢
  omega

theorem step_complete (curr next : Nat → FE) (m : FE → FE) (w : Nat) (s s' : Regs)
    (hw : w < 2 ^ 63)
    (hg : (Instr.ofWord w).GroupsLegal) (hcomb : (Instr.ofWord w).CombinationsLegal)
    (hstep : StepInstr m (Instr.ofWord w) s s')
    (hf : ∀ i, i < 15 → curr i = (fbit w i : FE)) (h15 : curr 15 = 0)
    (hres : (Instr.ofWord w).pcUpdate ≠ 4 →
      curr 16 = result (Instr.ofWord w) (operands m (Instr.ofWord w) s))
    (hjnz : (Instr.ofWord w).pcUpdate = 4 → curr 16 = (curr 24)⁻¹)
    (hap : curr 17 = s.ap) (hfp : curr 18 = s.fp) (hpc : curr 19 = s.pc)
    (hda : curr 20 = (operands m (Instr.ofWord w) s).dstAddr)
    (h0a : curr 21 = (operands m (Instr.ofWord w) s).op0Addr)
    (h1a : curr 22 = (operands m (Instr.ofWord w) s).op1Addr)
    (hi : curr 23 = (w : FE))
    (hd : curr 24 = (operands m (Instr.ofWord w) s).dst)
    (h0 : curr 25 = (operands m (Instr.ofWord w) s).op0)
    (h1 : curr 26 = (operands m (Instr.ofWord w) s).op1)
    (ho0 : curr 27 = (bits w 0 16 : FE)) (ho1 : curr 28 = (bits w 16 16 : FE))
    (ho2 : curr 29 = (bits w 32 16 : FE))
    (ht0 : curr 30 = curr 9 * curr 24) (ht1 : curr 31 = curr 30 * curr 16)
    (hmul : curr 32 = curr 25 * curr 26)
    (hap' : next 17 = s'.ap) (hfp' : next 18 = s'.fp) (hpc' : next 19 = s'.pc) :
    ExecZero curr next := by
  have hI := ofWord_fbit w
  have hnest := word_nested w hw
  refine ⟨?_, h15, ?_⟩
  · intro i hi
    rw [hf i hi]
    rcases fbit_cases w i with h | h <;> rw [h] <;> norm_num
  suffices hz : ∀ c ∈ [instWord curr] ++ operandConstraints curr ++ registerConstraints curr next
      ++ opcodeConstraints curr, c = 0 by
    intro c hc; rw [hz c hc, zero_mul]
  obtain ⟨hass, spc, sap, sfp⟩ := hstep
  have c0 := hf 0 (by decide)
  have c1 := hf 1 (by decide)
  have c2 := hf 2 (by decide)
  have c3 := hf 3 (by decide)
  have c4 := hf 4 (by decide)
  have c5 := hf 5 (by decide)
  have c6 := hf 6 (by decide)
  have c7 := hf 7 (by decide)
  have c8 := hf 8 (by decide)
  have c9 := hf 9 (by decide)
  have c10 := hf 10 (by decide)
  have c11 := hf 11 (by decide)
  have c12 := hf 12 (by decide)
  have c13 := hf 13 (by decide)
  have c14 := hf 14 (by decide)
  have q0 := fbit_cases w 0
  have q1 := fbit_cases w 1
  have q2 := fbit_cases w 2
  have q3 := fbit_cases w 3
  have q4 := fbit_cases w 4
  have q5 := fbit_cases w 5
  have q6 := fbit_cases w 6
  have q7 := fbit_cases w 7
  have q8 := fbit_cases w 8
  have q9 := fbit_cases w 9
  have q10 := fbit_cases w 10
  have q11 := fbit_cases w 11
  have q12 := fbit_cases w 12
  have q13 := fbit_cases w 13
  have q14 := fbit_cases w 14
  generalize hII : Instr.ofWord w = I at *
  have dI : I.dstReg = fbit w 0 := by rw [hI]
  have oI : I.op0Reg = fbit w 1 := by rw [hI]
  have pI : I.op1Src = fbit w 2 + 2 * fbit w 3 + 4 * fbit w 4 := by rw [hI]
  have rI : I.resLogic = fbit w 5 + 2 * fbit w 6 := by rw [hI]
  have jI : I.pcUpdate = fbit w 7 + 2 * fbit w 8 + 4 * fbit w 9 := by rw [hI]
  have aI : I.apUpdate = fbit w 10 + 2 * fbit w 11 := by rw [hI]
  have cI : I.opcode = fbit w 12 + 2 * fbit w 13 + 4 * fbit w 14 := by rw [hI]
  have odI : (I.offDst : FE) = curr 27 - 2 ^ 15 := by rw [hI, ho0]; push_cast; norm_num
  have o0I : (I.offOp0 : FE) = curr 28 - 2 ^ 15 := by rw [hI, ho1]; push_cast; norm_num
  have o1I : (I.offOp1 : FE) = curr 29 - 2 ^ 15 := by rw [hI, ho2]; push_cast; norm_num
  have hinst : instWord curr = 0 := by
    simp only [instWord, List.range_succ, List.range_zero, List.nil_append, List.map_append,
      List.map_cons, List.map_nil, List.cons_append, List.reverse_cons, List.reverse_nil,
      List.foldl_cons, List.foldl_nil]
    rw [c0, c1, c2, c3, c4, c5, c6, c7, c8, c9, c10, c11, c12, c13, c14, hi, ho0, ho1, ho2]
    have := congrArg (Nat.cast : Nat → FE) hnest
    push_cast at this
    linear_combination this
  clear hnest hI hf
  obtain ⟨g1, g2, g3, g4, g5⟩ := hg
  rw [pI] at g1
  rw [rI] at g2
  rw [jI] at g3
  rw [aI] at g4
  rw [cI] at g5
  have k1 := op1_legal_cases q2 q3 q4 g1
  have k2 := res_legal_cases q5 q6 g2
  have k3 := op1_legal_cases q7 q8 q9 g3
  have k4 := res_legal_cases q10 q11 g4
  have k5 := op1_legal_cases q12 q13 q14 g5
  clear g1 g2 g3 g4 g5 q2 q3 q4 q5 q6 q7 q8 q9 q10 q11 q12 q13 q14
  obtain ⟨w1, w2⟩ := hcomb
  have Hsize : instrSize I = (fbit w 2 : FE) + 1 := by
    simp only [instrSize, pI]
    rcases k1 with ⟨h, h', h''⟩ | ⟨h, h', h''⟩ | ⟨h, h', h''⟩ | ⟨h, h', h''⟩ <;>
      simp only [h, h', h''] <;> norm_num
  have hops : operands m I s =
      ⟨curr 20, curr 21, curr 22, curr 24, curr 25, curr 26⟩ := by
    rw [hda, h0a, h1a, hd, h0, h1]
  have hbase : op1Base I s (curr 25) + (I.offOp1 : FE) = curr 22 := by
    rw [h1a, h0]; rfl
  have hdA : (if I.dstReg = 0 then s.ap else s.fp) + (I.offDst : FE) = curr 20 := by rw [hda]; rfl
  have h0A : (if I.op0Reg = 0 then s.ap else s.fp) + (I.offOp0 : FE) = curr 21 := by rw [h0a]; rfl
  rw [hops] at hres hass spc sap sfp
  clear hda h0a h1a hd h0 h1 hi ho0 ho1 ho2 hops hII
  generalize fbit w 0 = b0 at *
  generalize fbit w 1 = b1 at *
  generalize fbit w 2 = b2 at *
  generalize fbit w 3 = b3 at *
  generalize fbit w 4 = b4 at *
  generalize fbit w 5 = b5 at *
  generalize fbit w 6 = b6 at *
  generalize fbit w 7 = b7 at *
  generalize fbit w 8 = b8 at *
  generalize fbit w 9 = b9 at *
  generalize fbit w 10 = b10 at *
  generalize fbit w 11 = b11 at *
  generalize fbit w 12 = b12 at *
  generalize fbit w 13 = b13 at *
  generalize fbit w 14 = b14 at *
  simp only [operandConstraints, registerConstraints, opcodeConstraints, frameInstSize,
    List.cons_append, List.nil_append, List.mem_cons,
    List.not_mem_nil, or_false, forall_eq_or_imp, forall_eq]
  refine ⟨hinst, ?_, ?_, ?_, ?_, ?_, ?_, ?_, ?_, ?_, ?_, ?_, ?_, ?_, ?_⟩
  · rw [c0, hap, hfp, ← hdA, odI, dI]
    rcases q0 with h | h <;> rw [h] <;> norm_num
  · rw [c1, hap, hfp, ← h0A, o0I, oI]
    rcases q1 with h | h <;> rw [h] <;> norm_num
  · rw [c2, c3, c4, hap, hfp, hpc, ← hbase, o1I]
    simp only [op1Base, pI]
    rcases k1 with ⟨h, h', h''⟩ | ⟨h, h', h''⟩ | ⟨h, h', h''⟩ | ⟨h, h', h''⟩ <;>
      simp only [h, h', h''] <;> norm_num
  · -- next ap
    rw [c10, c11, c12, hap, hap', sap]
    simp only [nextAp, aI, cI]
    rcases k5 with ⟨h, h', h''⟩ | ⟨h, h', h''⟩ | ⟨h, h', h''⟩ | ⟨h, h', h''⟩
    case inr.inl =>
      have ha : I.apUpdate = 0 := w2 (by rw [cI]; omega)
      rw [aI] at ha
      have e10 : b10 = 0 := by omega
      have e11 : b11 = 0 := by omega
      simp only [h, h', h'', e10, e11]; norm_num
    all_goals
      have hr : b10 = 1 → curr 16 = result I
          ⟨curr 20, curr 21, curr 22, curr 24, curr 25, curr 26⟩ := by
        intro h10
        apply hres
        intro h4
        have := (w1 h4).2.2
        rw [aI] at this
        omega
      rcases k4 with ⟨a, a'⟩ | ⟨a, a'⟩ | ⟨a, a'⟩
      · simp only [h, h', h'', a, a']; norm_num
      · rw [hr a]; simp only [h, h', h'', a, a']; norm_num
      · simp only [h, h', h'', a, a']; norm_num
  · -- next fp
    rw [c13, c12, hap, hfp, hfp', sfp]
    simp only [nextFp, cI]
    rcases k5 with ⟨h, h', h''⟩ | ⟨h, h', h''⟩ | ⟨h, h', h''⟩ | ⟨h, h', h''⟩ <;>
      simp only [h, h', h''] <;> norm_num
  · -- next pc, first
    rw [ht1, ht0, c9, c2, hpc, hpc', spc]
    simp only [nextPc, jI, Hsize]
    rcases k3 with ⟨h, h', h''⟩ | ⟨h, h', h''⟩ | ⟨h, h', h''⟩ | ⟨h, h', h''⟩
    case inr.inr.inr =>
      rw [hjnz (by rw [jI]; omega)]
      simp only [h, h', h'']
      norm_num
      by_cases hz : curr 24 = 0
      · right; simp [hz]
      · left; rw [mul_inv_cancel₀ hz]; ring
    all_goals simp only [h, h', h'']; norm_num
  · -- next pc, second
    rw [ht0, c9, c7, c8, c2, hpc, hpc', spc]
    simp only [nextPc, jI, Hsize]
    rcases k3 with ⟨h, h', h''⟩ | ⟨h, h', h''⟩ | ⟨h, h', h''⟩ | ⟨h, h', h''⟩
    case inr.inr.inr =>
      simp only [h, h', h'']
      norm_num
      by_cases hz : curr 24 = 0
      · left; exact hz
      · right; simp [hz]
    case inl =>
      simp only [h, h', h'']; norm_num
    all_goals
      rw [hres (by rw [jI]; omega)]
      simp only [h, h', h'']; norm_num
  · rw [ht0]; ring
  · rw [ht1]; ring
  · rw [hmul]; ring
  · rw [c5, c6, c9, hmul]
    rcases k3 with ⟨h, h', h''⟩ | ⟨h, h', h''⟩ | ⟨h, h', h''⟩ | ⟨h, h', h''⟩
    case inr.inr.inr =>
      have hr := (w1 (by rw [jI]; omega)).1
      rw [rI] at hr
      have e5 : b5 = 0 := by omega
      have e6 : b6 = 0 := by omega
      rw [e5, e6, h'']; norm_num
    all_goals
      rw [hres (by rw [jI]; omega)]
      simp only [result, rI]
      rcases k2 with ⟨a, a'⟩ | ⟨a, a'⟩ | ⟨a, a'⟩ <;> simp only [h'', a, a'] <;> norm_num
  · rw [c12, hfp]
    rcases k5 with ⟨h, h', h''⟩ | ⟨h, h', h''⟩ | ⟨h, h', h''⟩ | ⟨h, h', h''⟩
    case inr.inl =>
      have := (hass.1 (by rw [cI]; omega)).2
      simp only at this
      rw [this]; ring
    all_goals rw [h]; norm_num
  · rw [c12, c2, hpc]
    rcases k5 with ⟨h, h', h''⟩ | ⟨h, h', h''⟩ | ⟨h, h', h''⟩ | ⟨h, h', h''⟩
    case inr.inl =>
      have := (hass.1 (by rw [cI]; omega)).1
      rw [Hsize] at this
      simp only at this
      rw [this]; ring
    all_goals rw [h]; norm_num
  · rw [c14]
    rcases k5 with ⟨h, h', h''⟩ | ⟨h, h', h''⟩ | ⟨h, h', h''⟩ | ⟨h, h', h''⟩
    case inr.inr.inr =>
      have ho : I.opcode = 4 := by rw [cI]; omega
      have hne : I.pcUpdate ≠ 4 := by
        intro h4
        have := (w1 h4).2.1
        omega
      have := hass.2 ho
      rw [hres hne, ← this]; ring
    all_goals rw [h'']; norm_num

end Verif.CairoAir
