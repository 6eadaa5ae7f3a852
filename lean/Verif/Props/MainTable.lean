import Verif.Lemmas.MainTable
import Verif.Examples.Traces

/-!
# The main trace as the code builds it: C71
-/

namespace Verif.Props
open Verif.ExecTrace Verif.CairoAir

/-- **C71.** Building the main trace column by column on a flat table, as the code does (vectors with
one entry per step, updated in place; columns pushed one after the other; cells appended at the end of
the table; loops), and building it one step at a time as a list of rows give the same result: both
panic, or the table is the concatenation of the rows and the public inputs are the same. -/
theorem C71_columns_are_rows (states : List RegistersState) (mem : CairoMemory)
    (pi : PublicInputs) :
    MainTable.buildMainTrace states mem pi = (do
      let (rows, pi') ← ExecTrace.buildMainTrace states mem pi
      return (⟨rows.flatten, if (pi.memorySegments.get? .rangeCheck).isSome then 43 else 34⟩, pi')) := by
  have hww : mainWidth pi = if (pi.memorySegments.get? .rangeCheck).isSome then 43 else 34 := by
    unfold mainWidth
    cases pi.memorySegments.get? .rangeCheck <;> rfl
  rw [MainTable.main_eq, hww]
  rfl

/-- **C71.** The rows that the accessors of the table read are the rows computed step by step. -/
theorem C71_table_rows {states : List RegistersState} {mem : CairoMemory} {pi pi' : PublicInputs}
    {t : TraceTable FE} (h : MainTable.buildMainTrace states mem pi = .ok (t, pi')) :
    ∃ rows, ExecTrace.buildMainTrace states mem pi = .ok (rows, pi') ∧ t.rows = .ok rows ∧
      t.nRows = rows.length := by
  rw [MainTable.main_eq] at h
  simp only [Outcome.bind_eq_ok, Prod.exists, Outcome.ok.injEq, Prod.mk.injEq] at h
  obtain ⟨rows, pi'', hrows, rfl, rfl⟩ := h
  obtain ⟨exec, rcHoles, lo, hi, holes, last1, last2, k, M⟩ := buildMainTrace_ok hrows
  have hw := M.width.2.2.2
  have hge := mainWidth_ge pi
  have hn := TraceTable.nRows_ofRows rows (mainWidth pi) (by omega) hw
  refine ⟨rows, hrows, ?_, hn⟩
  unfold TraceTable.rows
  rw [hn]
  exact mapOutcome_range rfl fun i hi => TraceTable.getRow_ofRows rows _ hw i hi

/-- **C71.** The first 33 cells of row `i` of the table are determined by the registers of step `i`
and the memory: they are the cells computed for this step alone. -/
theorem C71_step_cells {states : List RegistersState} {mem : CairoMemory} {pi pi' : PublicInputs}
    {t : TraceTable FE} (h : MainTable.buildMainTrace states mem pi = .ok (t, pi')) (i : Nat)
    (hi : i < states.length) :
    ∃ cells, stepCells mem states[i] = .ok cells ∧ cells.length = 33 ∧
      ∀ c (hc : c < cells.length), (t.get i c : Outcome Empty FE) = .ok cells[c] := by
  obtain ⟨rows, hrows, ht, hn⟩ := C71_table_rows h
  rw [MainTable.main_eq, hrows] at h
  simp only [Outcome.bind_ok, Outcome.ok.injEq, Prod.mk.injEq, and_true] at h
  subst h
  obtain ⟨exec, rcHoles, lo, hi', holes, last1, last2, k, M⟩ := buildMainTrace_ok hrows
  have hw := M.width.2.2.2
  have hge := mainWidth_ge pi
  obtain ⟨cells, ext, hc, hne, hex, -, -⟩ := exec_ok M.exec_eq
  have hcl := (mapOutcome_mem hc).1
  have hcell := (mapOutcome_mem hc).2 i hi (by omega)
  have hel : exec.length = states.length := (exec_width M.exec_eq).1
  have hrl : i < rows.length := by
    rw [M.rows_eq]; simp only [List.length_append]; omega
  have hrow : rows[i] = cells[i] ++ selector states.length i :: ext i := by
    have : rows[i]? = exec[i]? := by
      rw [M.rows_eq, List.append_assoc, List.append_assoc,
        List.getElem?_append_left (by omega)]
    rw [List.getElem?_eq_getElem hrl, hex, List.getElem?_eq_getElem (by simp; omega)] at this
    simpa using this
  obtain ⟨v, hv, hvc⟩ := MainTable.stepCells_iff.1 hcell
  have hl33 : cells[i].length = 33 := by
    rw [hvc, MainTable.StepVals.cells]
    simp [MainTable.toTrace_length hv.repr, InstructionOffsets.toTrace]
  refine ⟨cells[i], hcell, hl33, fun c hc => ?_⟩
  rw [TraceTable.get_ofRows rows _ hw i c hrl (by omega), hrow]
  refine index_ok ?_
  rw [List.getElem?_append_left hc, List.getElem?_eq_getElem hc]

/-- **C71.** The same for the auxiliary trace of a table with the width of a main trace: filling the
public memory in place, scanning the products and pushing the 18 cells of each row by index gives the
concatenation of the rows, or a panic, whenever building it row by row does. -/
theorem C71_auxiliary (pi : PublicInputs) (rows : List (List FE)) (w : Nat) (hw : 34 ≤ w)
    (hrows : ∀ r ∈ rows, r.length = w) (ch : RAPChallenges FE) :
    MainTable.buildAuxiliaryTrace pi ⟨rows.flatten, w⟩ ch = (do
      let aux ← ExecTrace.buildAuxiliaryTrace pi rows ch
      return ⟨aux.flatten, 18⟩) :=
  MainTable.aux_eq pi rows w hw hrows ch

/-- The table of `simple_program`: eight rows of 34 cells for three steps. -/
example : ∃ t, MainTable.buildMainTrace Examples.states Examples.mem Examples.pi0 =
    .ok (t, Examples.main0.2) ∧ t.nRows = 8 ∧ t.nCols = 34 := by
  refine ⟨⟨Examples.main0.1.flatten, 34⟩, ?_, ?_, rfl⟩
  · rw [C71_columns_are_rows, Examples.main0_eq, Outcome.bind_ok]
    simp only [show (Examples.pi0.memorySegments.get? .rangeCheck).isSome = false by decide +kernel,
      Bool.false_eq_true, if_false, Outcome.pure_eq]
  · decide +kernel

/-- Its auxiliary table: eight rows of 18 cells. -/
example : ∃ t, MainTable.buildAuxiliaryTrace Examples.main0.2 ⟨Examples.main0.1.flatten, 34⟩
    Examples.ch0 = .ok t ∧ t.nRows = 8 ∧ t.nCols = 18 := by
  refine ⟨⟨Examples.aux0.flatten, 18⟩, ?_, ?_, rfl⟩
  · rw [C71_auxiliary _ _ _ (le_refl _) (by decide +kernel), Examples.aux0_eq]
    rfl
  · decide +kernel

end Verif.Props
