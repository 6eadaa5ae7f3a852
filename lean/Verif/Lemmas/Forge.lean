import Verif.Lemmas.CairoSat

/-! Changing cells of a trace that satisfies the Cairo AIR. -/

namespace Verif.CairoAir
open Spec

/-- Unfolds the column constants. -/
macro "unfold_cols" : tactic => `(tactic|
  simp only [builtinOffset, BUILTIN_OFFSET, MEMORY_ADDR_SORTED_0, MEMORY_VALUES_SORTED_0,
    PERMUTATION_ARGUMENT_COL_0, RANGE_CHECK_COL_1, RANGE_CHECK_COL_2, RANGE_CHECK_COL_3,
    PERMUTATION_ARGUMENT_RANGE_CHECK_COL_1, FRAME_PC, FRAME_DST_ADDR, FRAME_OP0_ADDR,
    FRAME_OP1_ADDR, FRAME_INST, FRAME_DST, FRAME_OP0, FRAME_OP1, OFF_DST, OFF_OP0, OFF_OP1, RC_0,
    RC_VALUE, if_true, if_false, Bool.false_eq_true, Nat.reduceAdd, Nat.reduceSub, Nat.sub_zero,
    Nat.add_zero])

/-- Unfolds the column constants of the execution constraints. -/
macro "exec_cols" : tactic => `(tactic|
  simp only [F_DST_FP, F_OP_0_FP, F_OP_1_VAL, F_OP_1_FP, F_OP_1_AP, F_RES_ADD, F_RES_MUL, F_PC_ABS, F_PC_REL, F_PC_JNZ, F_AP_ADD, F_AP_ONE, F_OPC_CALL, F_OPC_RET, F_OPC_AEQ, FRAME_RES, FRAME_AP, FRAME_FP, FRAME_PC, FRAME_DST_ADDR, FRAME_OP0_ADDR, FRAME_OP1_ADDR, FRAME_INST, FRAME_DST, FRAME_OP0, FRAME_OP1, OFF_DST, OFF_OP0, OFF_OP1, FRAME_T0, FRAME_T1, FRAME_MUL])

section
variable (hasRc : Bool) (ch : RAPChallenges FE) {f f' g g' : Nat → FE}

theorem memory_congr (hf : ∀ c, 34 ≤ c → f c = f' c) (hg : ∀ c, 34 ≤ c → g c = g' c) :
    memoryIsIncreasing (builtinOffset hasRc) f g = memoryIsIncreasing (builtinOffset hasRc) f' g' := by
  cases hasRc <;> unfold memoryIsIncreasing <;> unfold_cols <;> simp [hf, hg]

theorem permutation_congr (hf : ∀ c, 34 ≤ c → f c = f' c) (hg : ∀ c, 34 ≤ c → g c = g' c)
    (hf2 : ∀ c, 19 ≤ c → c < 27 → f c = f' c) (hg2 : ∀ c, 19 ≤ c → c < 27 → g c = g' c) :
    permutationArgument ch (builtinOffset hasRc) f g =
      permutationArgument ch (builtinOffset hasRc) f' g' := by
  cases hasRc <;> unfold permutationArgument <;> unfold_cols <;> simp [hf, hg, hf2, hg2]

theorem rangeCheck_congr (hf : ∀ c, 34 ≤ c → f c = f' c) (hg : ∀ c, 34 ≤ c → g c = g' c)
    (hf2 : ∀ c, 27 ≤ c → c < 30 → f c = f' c) (hg2 : ∀ c, 27 ≤ c → c < 30 → g c = g' c) :
    permutationArgumentRangeCheck ch (builtinOffset hasRc) f g =
      permutationArgumentRangeCheck ch (builtinOffset hasRc) f' g' := by
  cases hasRc <;> unfold permutationArgumentRangeCheck <;> unfold_cols <;> simp [hf, hg, hf2, hg2]

theorem execPart_congr (hf : ∀ c, c < 34 → f c = f' c) (hg : ∀ c, c < 34 → g c = g' c) :
    execPart f g = execPart f' g' := by
  have hr : (List.range 15).map (fun i => f i * (f i - 1)) = (List.range 15).map (fun i => f' i * (f' i - 1)) := by
    refine List.map_congr_left fun i hi => ?_
    have := List.mem_range.1 hi
    rw [hf i (by omega)]
  unfold execPart
  rw [hr, hf 15 (by omega), hf 33 (by omega)]
  have hi : instWord f = instWord f' := by simp [instWord, hf, List.range_succ]
  have ho : operandConstraints f = operandConstraints f' := by
    unfold operandConstraints; exec_cols; simp [hf]
  have hreg : registerConstraints f g = registerConstraints f' g' := by
    unfold registerConstraints frameInstSize; exec_cols; simp [hf, hg]
  have hopc : opcodeConstraints f = opcodeConstraints f' := by
    unfold opcodeConstraints frameInstSize; exec_cols; simp [hf]
  rw [hi, ho, hreg, hopc]

theorem memory_congr_rc (hf : ∀ c, 42 < c → f c = f' c) (hg : ∀ c, 42 < c → g c = g' c) :
    memoryIsIncreasing (builtinOffset true) f g = memoryIsIncreasing (builtinOffset true) f' g' := by
  unfold memoryIsIncreasing; unfold_cols; simp [hf, hg]

theorem permutation_congr_rc (hf : ∀ c, c < 34 ∨ 42 < c → f c = f' c)
    (hg : ∀ c, c < 34 ∨ 42 < c → g c = g' c) :
    permutationArgument ch (builtinOffset true) f g = permutationArgument ch (builtinOffset true) f' g' := by
  unfold permutationArgument; unfold_cols; simp [hf, hg]

theorem rangeCheck_congr_rc (hf : ∀ c, c < 34 ∨ 42 < c → f c = f' c)
    (hg : ∀ c, c < 34 ∨ 42 < c → g c = g' c) :
    permutationArgumentRangeCheck ch (builtinOffset true) f g =
      permutationArgumentRangeCheck ch (builtinOffset true) f' g' := by
  unfold permutationArgumentRangeCheck; unfold_cols; simp [hf, hg]

theorem builtin_congr (hf : ∀ c, 34 ≤ c → f c = f' c) :
    rangeCheckBuiltin f = rangeCheckBuiltin f' := by
  unfold rangeCheckBuiltin; unfold_cols; simp [hf]

end

/-- Clearing the selectors: the constraints that remain do not read the columns of `ap`, `fp`, `res`,
`t0`, `t1` and `mul`. -/
theorem Parts.clearSelector {hasRc : Bool} {ch : RAPChallenges FE} {n : Nat} {f f' : Nat → Nat → FE}
    (h : Parts hasRc ch n f) (hsel : ∀ i < n, f' i 33 = 0)
    (hsame : ∀ i < n, ∀ c, c ∉ [16, 17, 18, 30, 31, 32, 33] → f' i c = f i c) : Parts hasRc ch n f' := by
  have same : ∀ i < n, ∀ c, c ≠ 16 → c ≠ 17 → c ≠ 18 → c ≠ 30 → c ≠ 31 → c ≠ 32 → c ≠ 33 →
      f' i c = f i c := by
    intro i hi c h1 h2 h3 h4 h5 h6 h7
    exact hsame i hi c (by simp [h1, h2, h3, h4, h5, h6, h7])
  have hm : ∀ i < n, (i + 1) % n < n := fun i hi => Nat.mod_lt _ (by omega)
  have s34 : ∀ i < n, ∀ c, 34 ≤ c → f' i c = f i c := fun i hi c hc =>
    same i hi c (by omega) (by omega) (by omega) (by omega) (by omega) (by omega) (by omega)
  have s19 : ∀ i < n, ∀ c, 19 ≤ c → c < 27 → f' i c = f i c := fun i hi c h1 h2 =>
    same i hi c (by omega) (by omega) (by omega) (by omega) (by omega) (by omega) (by omega)
  have s27 : ∀ i < n, ∀ c, 27 ≤ c → c < 30 → f' i c = f i c := fun i hi c h1 h2 =>
    same i hi c (by omega) (by omega) (by omega) (by omega) (by omega) (by omega) (by omega)
  refine ⟨?_, ?_, ?_, ?_, ?_, ?_, ?_⟩
  · intro i hi j hj
    rw [same i hi j (by omega) (by omega) (by omega) (by omega) (by omega) (by omega) (by omega)]
    exact h.flags i hi j hj
  · intro i hi
    rw [same i hi 15 (by omega) (by omega) (by omega) (by omega) (by omega) (by omega) (by omega)]
    exact h.c15 i hi
  · intro i hi k h1 h2 _
    exact execPart_sel _ _ (hsel i hi) k h1 h2
  · intro i hi
    rw [memory_congr hasRc (s34 i hi) (s34 _ (hm i hi))]
    exact h.mem i hi
  · intro i hi
    rw [permutation_congr hasRc ch (s34 i hi) (s34 _ (hm i hi)) (s19 i hi) (s19 _ (hm i hi))]
    exact h.perm i hi
  · intro i hi
    rw [rangeCheck_congr hasRc ch (s34 i hi) (s34 _ (hm i hi)) (s27 i hi) (s27 _ (hm i hi))]
    exact h.rc i hi
  · intro hrc i hi
    rw [builtin_congr (s34 i hi)]
    exact h.builtin hrc i hi

end Verif.CairoAir
