import Verif.Spec.Rows
import Verif.Lemmas.ExecutionTrace
import Verif.Lemmas.StepSound
import Verif.Examples.Simple

/-!
# Properties of the Cairo AIR on a single step: C15, C16, C25
-/

namespace Verif.Props
open Verif.Spec Verif.CairoAir Verif.ExecTrace

/-- **C15.** The cells the prover writes for one step are those the Cairo machine prescribes.
If the assertions of the instruction at `pc` hold, then the row holds the flag bits, the registers,
the operand addresses and values, the biased offsets and the auxiliary products, and the result cell
is the machine's result (the inverse of dst for a conditional jump, which has no result). -/
theorem C15_row_operands {mem : CairoMemory} {m : FE → FE} (hm : Holds mem m) {t : RegistersState}
    {cells : List FE} (h : stepCells mem t = .ok cells)
    (haddr : Op0IsAddress m (regsOf t))
    (hassert : assertionsHold (instrAt m (regsOf t)) (regsOf t) (operandsAt m (regsOf t))) :
    cells.length = 33 ∧
    (instrAt m (regsOf t)).GroupsLegal ∧
    (∀ j < 15, cells[j]? = some (if (m t.pc).val.testBit (48 + j) then 1 else 0)) ∧
    cells[15]? = some 0 ∧
    cells[17]? = some (t.ap : FE) ∧ cells[18]? = some (t.fp : FE) ∧ cells[19]? = some (t.pc : FE) ∧
    cells[20]? = some (operandsAt m (regsOf t)).dstAddr ∧
    cells[21]? = some (operandsAt m (regsOf t)).op0Addr ∧
    cells[22]? = some (operandsAt m (regsOf t)).op1Addr ∧
    cells[23]? = some (m t.pc) ∧
    cells[24]? = some (operandsAt m (regsOf t)).dst ∧
    cells[25]? = some (operandsAt m (regsOf t)).op0 ∧
    cells[26]? = some (operandsAt m (regsOf t)).op1 ∧
    cells[27]? = some (((instrAt m (regsOf t)).offDst + 2 ^ 15 : Int) : FE) ∧
    cells[28]? = some (((instrAt m (regsOf t)).offOp0 + 2 ^ 15 : Int) : FE) ∧
    cells[29]? = some (((instrAt m (regsOf t)).offOp1 + 2 ^ 15 : Int) : FE) ∧
    ((instrAt m (regsOf t)).pcUpdate ≠ 4 →
      cells[16]? = some (result (instrAt m (regsOf t)) (operandsAt m (regsOf t)))) ∧
    ((instrAt m (regsOf t)).pcUpdate = 4 → cells[16]? = some (operandsAt m (regsOf t)).dst⁻¹) := by
  obtain ⟨hg, res, rfl, hr, hj⟩ := stepCells_ok hm h haddr hassert
  have hpc : (regsOf t).pc = (t.pc : FE) := rfl
  refine ⟨by simp [specCells], hg, ?_, ?_⟩
  · intro j hj
    unfold specCells
    simp only [List.append_assoc]
    rw [List.getElem?_append_left (by simpa using hj)]
    simp [hj, flagBit, hpc]
  · simp only [specCells]
    simp [List.range_succ, regsOf, instrAt, Instr.ofWord] at hr hj ⊢
    exact ⟨hr, fun h => (hj h).1⟩

/-- Beside C15: whenever the machine is defined at the state and the memory file records the cells
the instruction touches, the prover does build the row. -/
theorem C15_row_exists {mem : CairoMemory} {m : FE → FE} (hm : Holds mem m) {t : RegistersState}
    (h64 : Registers64 t) (hlegal : LegalWord (m t.pc))
    (hrec : AccessesRecorded mem m (regsOf t)) (haddr : Op0IsAddress m (regsOf t)) :
    ∃ cells, stepCells mem t = .ok cells :=
  stepCells_exists hm h64 hlegal hrec haddr

/-- The hypotheses of C15 hold at the three entries of the run of `simple_program`. -/
example : ∀ t ∈ Examples.states, Registers64 t ∧ (∃ cells, stepCells Examples.mem t = .ok cells) ∧
    LegalWord (Examples.m t.pc) ∧ Op0IsAddress Examples.m (regsOf t) ∧
    assertionsHold (instrAt Examples.m (regsOf t)) (regsOf t) (operandsAt Examples.m (regsOf t)) := by
  simp only [Examples.states, List.mem_cons, List.not_mem_nil, or_false, forall_eq_or_imp, forall_eq]
  refine ⟨?_, ?_, ?_⟩ <;>
  · refine ⟨by unfold Registers64; decide, ?_, by unfold LegalWord; decide +kernel,
      by unfold Op0IsAddress; decide +kernel, by unfold assertionsHold; decide +kernel⟩
    rw [← Outcome.isOk_iff]
    decide +kernel

/-- **C16.** If the machine steps from the registers of one trace entry to those of the next, then
all the execution constraints (identifiers 0 to 30) vanish on the two rows the prover builds for
them, whatever the selector, the builtin columns and the auxiliary columns contain. -/
theorem C16_honest_step (hasRc : Bool) (ch : RAPChallenges FE)
    {mem : CairoMemory} {m : FE → FE} (hm : Holds mem m) {t t' : RegistersState}
    {cells cells' rest rest' : List FE}
    (h : stepCells mem t = .ok cells) (h' : stepCells mem t' = .ok cells')
    (haddr : Op0IsAddress m (regsOf t))
    (hstep : Step m (regsOf t) (regsOf t')) :
    ∀ k < 31, (computeTransition hasRc ch (rowFn (cells ++ rest)) (rowFn (cells' ++ rest')))[k]?
      = some 0 := by
  rw [execZero_iff]
  obtain ⟨⟨hw, hg, hcomb⟩, hinstr⟩ := hstep
  obtain ⟨-, res, rfl, hr, hj⟩ := stepCells_ok hm h haddr hinstr.asserts
  obtain ⟨hlen, h17, h18, h19⟩ := stepCells_regs h'
  have get : ∀ i, i < 33 → rowFn (specCells m (regsOf t) res ++ rest) i =
      (specCells m (regsOf t) res).getD i 0 := by
    intro i hi
    unfold rowFn
    rw [List.getD_eq_getElem?_getD, List.getElem?_append_left (by simpa [specCells] using hi),
      ← List.getD_eq_getElem?_getD]
  have get' : ∀ i v, i < 33 → cells'[i]? = some v → rowFn (cells' ++ rest') i = v := by
    intro i v hi hv
    unfold rowFn
    rw [List.getD_eq_getElem?_getD, List.getElem?_append_left (by omega), hv]; rfl
  have hflag : ∀ i, i < 15 → rowFn (specCells m (regsOf t) res ++ rest) i =
      flagBit (m (regsOf t).pc).val i := by
    intro i hi
    rw [get i (by omega), List.getD_eq_getElem?_getD]
    unfold specCells
    simp only [List.append_assoc]
    rw [List.getElem?_append_left (by simpa using hi)]
    simp [hi]
  refine step_complete _ _ m (m (regsOf t).pc).val (regsOf t) (regsOf t') hw hg hcomb hinstr
    (fun i hi => by rw [hflag i hi, flagBit_eq]) ?_ ?_ ?_ ?_ ?_ ?_ ?_ ?_ ?_ ?_ ?_ ?_ ?_ ?_ ?_ ?_ ?_
    ?_ ?_ (get' _ _ (by decide) h17) (get' _ _ (by decide) h18) (get' _ _ (by decide) h19)
  · rw [get _ (by decide)]; simp [specCells]
  · intro hne; refine Eq.trans ?_ (hr hne); rw [get _ (by decide)]; simp [specCells]
  · intro heq; rw [get _ (by decide), get _ (by decide)]
    have := (hj heq).1
    simp [specCells, this]
  all_goals rw [get _ (by decide)]
  all_goals try (simp [specCells, operandsAt, instrAt]; done)
  · rw [get 9 (by decide), get 24 (by decide)]; simp [specCells, List.range_succ]
  · rw [get 30 (by decide), get 16 (by decide)]; simp [specCells]
  · rw [get 25 (by decide), get 26 (by decide)]; simp [specCells]

/-- The hypotheses of C16 hold for the steps of the run of `simple_program`. -/
example : Step Examples.m (regsOf ⟨1, 8, 8⟩) (regsOf ⟨3, 8, 9⟩) ∧
    Step Examples.m (regsOf ⟨3, 8, 9⟩) (regsOf ⟨5, 8, 9⟩) := by
  constructor <;>
  · refine ⟨by unfold LegalWord; decide +kernel, ?_, ?_, ?_, ?_⟩
    · unfold assertionsHold; decide +kernel
    all_goals decide +kernel

/-- **C25.** Soundness of one step: if the execution constraints vanish on two consecutive rows, the
selector of the first is not zero, its offset cells are range-checked, and its four memory accesses
agree with a memory `m`, then the word at `pc` is a 63-bit word and, when it is an instruction the
Cairo specification defines, the second row holds the registers after one machine step. -/
theorem C25_step_soundness (hasRc : Bool) (ch : RAPChallenges FE) (curr next : Nat → FE)
    (m : FE → FE)
    (hc : ∀ k < 31, (computeTransition hasRc ch curr next)[k]? = some 0)
    (hsel : curr FRAME_SELECTOR ≠ 0)
    (hoff : ∀ c ∈ [OFF_DST, OFF_OP0, OFF_OP1], (curr c).val < 2 ^ 16)
    (hmem : ∀ a ∈ [(FRAME_PC, FRAME_INST), (FRAME_DST_ADDR, FRAME_DST),
      (FRAME_OP0_ADDR, FRAME_OP0), (FRAME_OP1_ADDR, FRAME_OP1)], m (curr a.1) = curr a.2) :
    (m (curr FRAME_PC)).val < 2 ^ 63 ∧
    (LegalWord (m (curr FRAME_PC)) →
      Step m ⟨curr FRAME_PC, curr FRAME_AP, curr FRAME_FP⟩
        ⟨next FRAME_PC, next FRAME_AP, next FRAME_FP⟩) := by
  simp only [List.mem_cons, List.not_mem_nil, or_false, forall_eq_or_imp, forall_eq] at hoff hmem
  obtain ⟨o1, o2, o3⟩ := hoff
  obtain ⟨m1, m2, m3, m4⟩ := hmem
  obtain ⟨h1, h2⟩ := step_sound curr next ((execZero_iff hasRc ch curr next).1 hc) hsel o1 o2 o3 m
    m1 m2 m3 m4
  exact ⟨h1, fun hl => ⟨hl, h2 hl.2.1 hl.2.2⟩⟩

/-- The hypotheses of C25 hold on the rows of `simple_program`, with selector 1. -/
example : ∃ cells cells',
    stepCells Examples.mem ⟨1, 8, 8⟩ = .ok cells ∧ stepCells Examples.mem ⟨3, 8, 9⟩ = .ok cells' ∧
    (∀ k < 31, (computeTransition false ⟨2, 3, 5⟩ (rowFn (cells ++ [1])) (rowFn (cells' ++ [1])))[k]?
      = some 0) ∧
    rowFn (cells ++ [1]) FRAME_SELECTOR ≠ 0 ∧
    (∀ c ∈ [OFF_DST, OFF_OP0, OFF_OP1], (rowFn (cells ++ [1]) c).val < 2 ^ 16) ∧
    (∀ a ∈ [(FRAME_PC, FRAME_INST), (FRAME_DST_ADDR, FRAME_DST),
      (FRAME_OP0_ADDR, FRAME_OP0), (FRAME_OP1_ADDR, FRAME_OP1)],
      Examples.m (rowFn (cells ++ [1]) a.1) = rowFn (cells ++ [1]) a.2) := by
  refine ⟨[0, 1, 1, 0, 0, 0, 0, 0, 0, 0, 0, 1, 0, 0, 1, 0, 3, 8, 8, 1, 8, 7, 2, 0x480680017fff8000,
      3, 9, 3, 0x8000, 0x7fff, 0x8001, 0, 0, 27],
    [0, 1, 1, 0, 0, 0, 0, 0, 0, 0, 0, 0, 0, 0, 1, 0, 3, 9, 8, 3, 8, 7, 4, 0x400680017fff7fff,
      3, 9, 3, 0x7fff, 0x7fff, 0x8001, 0, 0, 27], by decide +kernel, by decide +kernel,
    by decide +kernel, by decide +kernel, by decide +kernel, by decide +kernel⟩

end Verif.Props
