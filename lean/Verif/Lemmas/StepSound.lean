import Verif.Lemmas.CairoAir
import Mathlib.Tactic.LinearCombination
import Mathlib.Tactic.FieldSimp

/-! Two rows satisfying the execution constraints are one Cairo step. -/

namespace Verif.CairoAir
open Spec

/-- Splitting a word given by its parts. -/
theorem bits_of_parts (d o0 o1 : Nat) (b : Nat → Nat) (hd : d < 2 ^ 16) (h0 : o0 < 2 ^ 16)
    (h1 : o1 < 2 ^ 16) (hb : ∀ i, i < 15 → b i = 0 ∨ b i = 1) (w : Nat)
    (hw : w = d + 2 ^ 16 * o0 + 2 ^ 32 * o1 + 2 ^ 48 * (b 0 + 2 * (b 1 + 2 * (b 2 + 2 * (b 3 + 2 *
      (b 4 + 2 * (b 5 + 2 * (b 6 + 2 * (b 7 + 2 * (b 8 + 2 * (b 9 + 2 * (b 10 + 2 * (b 11 + 2 *
      (b 12 + 2 * (b 13 + 2 * b 14))))))))))))))) :
    w < 2 ^ 63 ∧
    Instr.ofWord w = ⟨(d : Int) - 2 ^ 15, (o0 : Int) - 2 ^ 15, (o1 : Int) - 2 ^ 15, b 0, b 1,
      b 2 + 2 * b 3 + 4 * b 4, b 5 + 2 * b 6, b 7 + 2 * b 8 + 4 * b 9, b 10 + 2 * b 11,
      b 12 + 2 * b 13 + 4 * b 14⟩ := by
  have hle : ∀ i, i < 15 → b i ≤ 1 := fun i hi => by rcases hb i hi with h | h <;> omega
  have l0 := hle 0 (by decide)
  have l1 := hle 1 (by decide)
  have l2 := hle 2 (by decide)
  have l3 := hle 3 (by decide)
  have l4 := hle 4 (by decide)
  have l5 := hle 5 (by decide)
  have l6 := hle 6 (by decide)
  have l7 := hle 7 (by decide)
  have l8 := hle 8 (by decide)
  have l9 := hle 9 (by decide)
  have l10 := hle 10 (by decide)
  have l11 := hle 11 (by decide)
  have l12 := hle 12 (by decide)
  have l13 := hle 13 (by decide)
  have l14 := hle 14 (by decide)
  clear hle hb
  generalize b 0 = b0 at *
  generalize b 1 = b1 at *
  generalize b 2 = b2 at *
  generalize b 3 = b3 at *
  generalize b 4 = b4 at *
  generalize b 5 = b5 at *
  generalize b 6 = b6 at *
  generalize b 7 = b7 at *
  generalize b 8 = b8 at *
  generalize b 9 = b9 at *
  generalize b 10 = b10 at *
  generalize b 11 = b11 at *
  generalize b 12 = b12 at *
  generalize b 13 = b13 at *
  generalize b 14 = b14 at *
  norm_num at hd h0 h1 hw
  refine ⟨by norm_num; omega, ?_⟩
  simp only [Instr.ofWord, bits, Instr.mk.injEq]
  norm_num
  refine ⟨?_, ?_, ?_, ?_, ?_, ?_, ?_, ?_, ?_, ?_⟩ <;> omega

theorem op1_legal_cases {a b c : Nat} (ha : a = 0 ∨ a = 1) (hb : b = 0 ∨ b = 1)
    (hc : c = 0 ∨ c = 1)
    (h : a + 2 * b + 4 * c = 0 ∨ a + 2 * b + 4 * c = 1 ∨ a + 2 * b + 4 * c = 2 ∨
      a + 2 * b + 4 * c = 4) :
    (a = 0 ∧ b = 0 ∧ c = 0) ∨ (a = 1 ∧ b = 0 ∧ c = 0) ∨ (a = 0 ∧ b = 1 ∧ c = 0) ∨
      (a = 0 ∧ b = 0 ∧ c = 1) := by omega

theorem res_legal_cases {a b : Nat} (ha : a = 0 ∨ a = 1) (hb : b = 0 ∨ b = 1)
    (h : a + 2 * b = 0 ∨ a + 2 * b = 1 ∨ a + 2 * b = 2) :
    (a = 0 ∧ b = 0) ∨ (a = 1 ∧ b = 0) ∨ (a = 0 ∧ b = 1) := by omega

/-- The registers a row holds. -/
def rowRegs (row : Nat → FE) : Regs := ⟨row 19, row 17, row 18⟩

theorem step_sound (curr next : Nat → FE) (h : ExecZero curr next) (hsel : curr 33 ≠ 0)
    (hd : (curr 27).val < 2 ^ 16) (h0 : (curr 28).val < 2 ^ 16) (h1 : (curr 29).val < 2 ^ 16)
    (m : FE → FE) (mi : m (curr 19) = curr 23) (md : m (curr 20) = curr 24)
    (m0 : m (curr 21) = curr 25) (m1 : m (curr 22) = curr 26) :
    (m (rowRegs curr).pc).val < 2 ^ 63 ∧
    ((Instr.ofWord (m (rowRegs curr).pc).val).GroupsLegal →
     (Instr.ofWord (m (rowRegs curr).pc).val).CombinationsLegal →
      StepInstr m (Instr.ofWord (m (rowRegs curr).pc).val) (rowRegs curr) (rowRegs next)) := by
  obtain ⟨hbit, -, hc⟩ := h
  have hz : ∀ c ∈ [instWord curr] ++ operandConstraints curr ++ registerConstraints curr next
      ++ opcodeConstraints curr, c = 0 := fun c hcm => by
    have := hc c hcm
    exact (mul_eq_zero.1 this).resolve_right hsel
  clear hc
  simp only [operandConstraints, registerConstraints, opcodeConstraints, frameInstSize,
    List.cons_append, List.nil_append, List.mem_cons,
    List.not_mem_nil, or_false, forall_eq_or_imp, forall_eq] at hz
  obtain ⟨zinst, zdst, zop0, zop1, zap, zfp, zpc1, zpc2, zt0, zt1, zmul1, zmul2, zcall1, zcall2,
    zaeq⟩ := hz
  -- the flags are bits
  have hb : ∀ i, ∃ b : Nat, i < 15 → (b = 0 ∨ b = 1) ∧ curr i = (b : FE) := by
    intro i
    by_cases hi : i < 15
    · rcases mul_eq_zero.1 (hbit i hi) with h | h
      · exact ⟨0, fun _ => ⟨.inl rfl, by rw [h]; norm_num⟩⟩
      · exact ⟨1, fun _ => ⟨.inr rfl, by rw [sub_eq_zero.1 h]; norm_num⟩⟩
    · exact ⟨0, fun h => absurd h hi⟩
  choose b hb using hb
  have hb1 : ∀ i, i < 15 → b i = 0 ∨ b i = 1 := fun i hi => (hb i hi).1
  have hb2 : ∀ i, i < 15 → curr i = (b i : FE) := fun i hi => (hb i hi).2
  -- the word
  set w := (curr 23).val with hwdef
  have e27 : curr 27 = ((curr 27).val : FE) := (ZMod.natCast_zmod_val _).symm
  have e28 : curr 28 = ((curr 28).val : FE) := (ZMod.natCast_zmod_val _).symm
  have e29 : curr 29 = ((curr 29).val : FE) := (ZMod.natCast_zmod_val _).symm
  set W := (curr 27).val + 2 ^ 16 * (curr 28).val + 2 ^ 32 * (curr 29).val + 2 ^ 48 *
      (b 0 + 2 * (b 1 + 2 * (b 2 + 2 * (b 3 + 2 *
      (b 4 + 2 * (b 5 + 2 * (b 6 + 2 * (b 7 + 2 * (b 8 + 2 * (b 9 + 2 * (b 10 + 2 * (b 11 + 2 *
      (b 12 + 2 * (b 13 + 2 * b 14)))))))))))))) with hW
  obtain ⟨hWlt, hWi⟩ := bits_of_parts _ _ _ b hd h0 h1 hb1 W hW
  have hinst : curr 23 = (W : FE) := by
    have z := zinst
    simp only [instWord, List.range_succ, List.range_zero, List.nil_append, List.map_append,
      List.map_cons, List.map_nil, List.cons_append, List.reverse_cons, List.reverse_nil,
      List.foldl_cons, List.foldl_nil] at z
    rw [hb2 0 (by decide), hb2 1 (by decide), hb2 2 (by decide), hb2 3 (by decide),
      hb2 4 (by decide), hb2 5 (by decide), hb2 6 (by decide), hb2 7 (by decide),
      hb2 8 (by decide), hb2 9 (by decide), hb2 10 (by decide), hb2 11 (by decide),
      hb2 12 (by decide), hb2 13 (by decide), hb2 14 (by decide)] at z
    rw [hW]
    push_cast
    rw [← e27, ← e28, ← e29]
    linear_combination -z
  have hwW : w = W := by
    rw [hwdef, hinst, ZMod.val_natCast_of_lt (lt_trans hWlt (lt_trans (by norm_num) P_gt))]
  have hpc : m (rowRegs curr).pc = curr 23 := mi
  rw [hpc, ← hwdef, hwW, hWi]
  refine ⟨hWlt, fun hg hcomb => ?_⟩
  clear hWi hwW hW hinst zinst hbit hb
  clear_value W w
  -- rename the flags
  have c0 := hb2 0 (by decide)
  have c1 := hb2 1 (by decide)
  have c2 := hb2 2 (by decide)
  have c3 := hb2 3 (by decide)
  have c4 := hb2 4 (by decide)
  have c5 := hb2 5 (by decide)
  have c6 := hb2 6 (by decide)
  have c7 := hb2 7 (by decide)
  have c8 := hb2 8 (by decide)
  have c9 := hb2 9 (by decide)
  have c10 := hb2 10 (by decide)
  have c11 := hb2 11 (by decide)
  have c12 := hb2 12 (by decide)
  have c13 := hb2 13 (by decide)
  have c14 := hb2 14 (by decide)
  obtain ⟨gop1, gres, gpc, gap, gopc⟩ := hg
  have k1 := op1_legal_cases (hb1 2 (by decide)) (hb1 3 (by decide)) (hb1 4 (by decide)) gop1
  have k2 := res_legal_cases (hb1 5 (by decide)) (hb1 6 (by decide)) gres
  have k3 := op1_legal_cases (hb1 7 (by decide)) (hb1 8 (by decide)) (hb1 9 (by decide)) gpc
  have k4 := res_legal_cases (hb1 10 (by decide)) (hb1 11 (by decide)) gap
  have k5 := op1_legal_cases (hb1 12 (by decide)) (hb1 13 (by decide)) (hb1 14 (by decide)) gopc
  have kd := hb1 0 (by decide)
  have k0 := hb1 1 (by decide)
  clear hb1 hb2 gop1 gres gpc gap gopc
  obtain ⟨q1, q2⟩ := hcomb
  generalize b 0 = b0 at *
  generalize b 1 = b1 at *
  generalize b 2 = b2 at *
  generalize b 3 = b3 at *
  generalize b 4 = b4 at *
  generalize b 5 = b5 at *
  generalize b 6 = b6 at *
  generalize b 7 = b7 at *
  generalize b 8 = b8 at *
  generalize b 9 = b9 at *
  generalize b 10 = b10 at *
  generalize b 11 = b11 at *
  generalize b 12 = b12 at *
  generalize b 13 = b13 at *
  generalize b 14 = b14 at *
  simp only at q1 q2
  rw [c0] at zdst
  rw [c1] at zop0
  rw [c2, c3, c4] at zop1
  rw [c10, c11, c12] at zap
  rw [c13, c12] at zfp
  rw [c9, c2] at zpc1
  rw [c9, c7, c8, c2] at zpc2
  rw [c9] at zt0
  rw [c5, c6, c9] at zmul2
  rw [c12] at zcall1
  rw [c12, c2] at zcall2
  rw [c14] at zaeq
  set I : Instr := ⟨((curr 27).val : Int) - 2 ^ 15, ((curr 28).val : Int) - 2 ^ 15,
    ((curr 29).val : Int) - 2 ^ 15, b0, b1, b2 + 2 * b3 + 4 * b4, b5 + 2 * b6,
    b7 + 2 * b8 + 4 * b9, b10 + 2 * b11, b12 + 2 * b13 + 4 * b14⟩ with hI
  have Hdst : (if I.dstReg = 0 then curr 17 else curr 18) + (I.offDst : FE) = curr 20 := by
    have : (I.offDst : FE) = curr 27 - 2 ^ 15 := by simp only [hI]; push_cast; rw [← e27]; norm_num
    rw [this]
    rcases kd with rfl | rfl <;> simp only [hI] <;> norm_num at zdst ⊢ <;> linear_combination zdst
  have Hop0 : (if I.op0Reg = 0 then curr 17 else curr 18) + (I.offOp0 : FE) = curr 21 := by
    have : (I.offOp0 : FE) = curr 28 - 2 ^ 15 := by simp only [hI]; push_cast; rw [← e28]; norm_num
    rw [this]
    rcases k0 with rfl | rfl <;> simp only [hI] <;> norm_num at zop0 ⊢ <;> linear_combination zop0
  have Hop1 : op1Base I (rowRegs curr) (curr 25) + (I.offOp1 : FE) = curr 22 := by
    have : (I.offOp1 : FE) = curr 29 - 2 ^ 15 := by simp only [hI]; push_cast; rw [← e29]; norm_num
    rw [this]
    rcases k1 with ⟨rfl, rfl, rfl⟩ | ⟨rfl, rfl, rfl⟩ | ⟨rfl, rfl, rfl⟩ | ⟨rfl, rfl, rfl⟩ <;>
      simp only [hI, op1Base, rowRegs] <;> norm_num at zop1 ⊢ <;> linear_combination zop1
  have Hops : operands m I (rowRegs curr) =
      ⟨curr 20, curr 21, curr 22, curr 24, curr 25, curr 26⟩ := by
    simp only [operands]
    have e1 : (if I.dstReg = 0 then (rowRegs curr).ap else (rowRegs curr).fp) + (I.offDst : FE)
        = curr 20 := Hdst
    have e2 : (if I.op0Reg = 0 then (rowRegs curr).ap else (rowRegs curr).fp) + (I.offOp0 : FE)
        = curr 21 := Hop0
    rw [e1, e2, m0, Hop1, md, m1]
  have Hsize : instrSize I = (b2 : FE) + 1 := by
    rcases k1 with ⟨rfl, rfl, rfl⟩ | ⟨rfl, rfl, rfl⟩ | ⟨rfl, rfl, rfl⟩ | ⟨rfl, rfl, rfl⟩ <;>
      simp only [hI, instrSize] <;> norm_num
  set o : Operands := ⟨curr 20, curr 21, curr 22, curr 24, curr 25, curr 26⟩ with ho
  have Hres : I.pcUpdate ≠ 4 → result I o = curr 16 := by
    intro hne
    have h9 : b9 = 0 := by
      rcases k3 with h | h | h | h <;> simp only [hI] at hne <;> omega
    rw [h9] at zmul2
    rcases k2 with ⟨rfl, rfl⟩ | ⟨rfl, rfl⟩ | ⟨rfl, rfl⟩ <;>
      simp only [hI, result, ho] <;> norm_num at zmul2 ⊢
    · linear_combination zmul2
    · linear_combination zmul2
    · linear_combination zmul2 - zmul1
  refine ⟨?_, ?_, ?_, ?_⟩
  · rw [Hops]
    constructor
    · intro hopc
      have h12 : b12 = 1 := by
        rcases k5 with h | h | h | h <;> simp only [hI] at hopc <;> omega
      rw [Hsize]
      rw [h12] at zcall1 zcall2
      norm_num at zcall1 zcall2
      constructor
      · simp only [ho, rowRegs]; linear_combination zcall2
      · simp only [ho, rowRegs]; linear_combination zcall1
    · intro hopc
      have h14 : b14 = 1 := by
        rcases k5 with h | h | h | h <;> simp only [hI] at hopc <;> omega
      have hne : I.pcUpdate ≠ 4 := by
        intro h4
        have := (q1 h4).2.1
        simp only [hI] at hopc
        omega
      rw [Hres hne]
      rw [h14] at zaeq
      norm_num at zaeq
      simp only [ho]; linear_combination zaeq
  · rw [Hops]
    simp only [nextPc, Hsize]
    rcases k3 with ⟨rfl, rfl, rfl⟩ | ⟨rfl, rfl, rfl⟩ | ⟨rfl, rfl, rfl⟩ | ⟨rfl, rfl, rfl⟩
    · simp only [hI, rowRegs]
      norm_num at zpc2 zt0 ⊢
      rw [zt0] at zpc2
      linear_combination zpc2
    · have hr := Hres (by simp [hI])
      rw [if_pos (by simp [hI]), hr]
      simp only [rowRegs]
      norm_num at zpc2 zt0
      rw [zt0] at zpc2
      linear_combination zpc2
    · have hr := Hres (by simp [hI])
      rw [if_neg (by simp [hI]), if_pos (by simp [hI]), hr]
      simp only [rowRegs]
      norm_num at zpc2 zt0
      rw [zt0] at zpc2
      linear_combination zpc2
    · rw [if_neg (by simp [hI]), if_neg (by simp [hI]), if_pos (by simp [hI])]
      simp only [rowRegs, ho]
      norm_num at zpc1 zt0
      push_cast at zpc2
      have ht0 : curr 30 = curr 24 := by linear_combination -zt0
      have ht1 : curr 31 = curr 24 * curr 16 := by rw [← ht0]; linear_combination -zt1
      split
      next hz =>
        rw [ht1, hz] at zpc1
        norm_num at zpc1
        linear_combination zpc1
      next hz =>
        rw [ht0] at zpc2
        have h2 : curr 24 * (next 19 - (curr 19 + curr 26)) = 0 := by linear_combination zpc2
        have := (mul_eq_zero.1 h2).resolve_left hz
        linear_combination this
  · rw [Hops]
    simp only [nextAp]
    by_cases hcall : I.opcode = 1
    · rw [if_pos hcall]
      have h12 : b12 = 1 := by
        rcases k5 with h | h | h | h <;> simp only [hI] at hcall <;> omega
      have h := q2 hcall
      have h10 : b10 = 0 := by omega
      have h11 : b11 = 0 := by omega
      rw [h12, h10, h11] at zap
      norm_num at zap
      simp only [rowRegs]
      linear_combination -zap
    · rw [if_neg hcall]
      have h12 : b12 = 0 := by
        rcases k5 with h | h | h | h <;> simp only [hI] at hcall <;> omega
      rw [h12] at zap
      rcases k4 with ⟨rfl, rfl⟩ | ⟨rfl, rfl⟩ | ⟨rfl, rfl⟩
      · rw [if_neg (by simp [hI]), if_neg (by simp [hI])]
        norm_num at zap
        simp only [rowRegs]
        linear_combination -zap
      · have hne : I.pcUpdate ≠ 4 := by
          intro h4
          have := (q1 h4).2.2
          omega
        rw [if_pos (by simp [hI]), Hres hne]
        norm_num at zap
        simp only [rowRegs]
        linear_combination -zap
      · rw [if_neg (by simp [hI]), if_pos (by simp [hI])]
        norm_num at zap
        simp only [rowRegs]
        linear_combination -zap
  · rw [Hops]
    simp only [nextFp]
    rcases k5 with ⟨rfl, rfl, rfl⟩ | ⟨rfl, rfl, rfl⟩ | ⟨rfl, rfl, rfl⟩ | ⟨rfl, rfl, rfl⟩
    · rw [if_neg (by simp [hI]), if_neg (by simp [hI])]
      norm_num at zfp
      simp only [rowRegs]
      linear_combination -zfp
    · rw [if_pos (by simp [hI])]
      norm_num at zfp
      simp only [rowRegs]
      linear_combination -zfp
    · rw [if_neg (by simp [hI]), if_pos (by simp [hI])]
      norm_num at zfp
      simp only [rowRegs, ho]
      linear_combination -zfp
    · rw [if_neg (by simp [hI]), if_neg (by simp [hI])]
      norm_num at zfp
      simp only [rowRegs]
      linear_combination -zfp

end Verif.CairoAir
