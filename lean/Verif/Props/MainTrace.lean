import Verif.Lemmas.MainTrace
import Verif.Lemmas.RcBuiltin
import Verif.Examples.Traces

/-!
# Properties of the main trace: C20, C21
-/

namespace Verif.Props
open Verif.ExecTrace Verif.CairoAir

/-- **C20.** The main trace built for a run (whatever the run is, whenever building succeeds) has
rows of one length, 43 with a range-check builtin and 34 without, their number is a power of two not
smaller than the number of steps, and the first rows are those of the steps. -/
theorem C20_main_trace_shape {states : List RegistersState} {mem : CairoMemory} {pi : PublicInputs}
    {rows : List (List FE)} {pi' : PublicInputs}
    (h : buildMainTrace states mem pi = .ok (rows, pi')) :
    (∃ k, rows.length = 2 ^ k) ∧ states.length ≤ rows.length ∧
    (∀ r ∈ rows, r.length = if (pi.memorySegments.get? .rangeCheck).isSome then 43 else 34) ∧
    ∀ (i : Nat) (t : RegistersState), states[i]? = some t → ∃ cells rest : List FE, stepCells mem t = .ok cells ∧
      rows[i]? = some (cells ++ rest) := by
  obtain ⟨exec, rcHoles, lo, hi, holes, last1, last2, k, M⟩ := buildMainTrace_ok h
  obtain ⟨hlen, -, -⟩ := exec_width M.exec_eq
  have hww : mainWidth pi = if (pi.memorySegments.get? .rangeCheck).isSome then 43 else 34 := by
    unfold mainWidth
    cases pi.memorySegments.get? .rangeCheck <;> rfl
  refine ⟨M.rows_len, ?_, ?_, ?_⟩
  · rw [M.rows_eq, ← hlen]; simp only [List.length_append]; omega
  · intro r hr
    rw [← hww]; exact M.width.2.2.2 r hr
  · intro i t ht
    obtain ⟨cells, ext, hc, -, he, -, -⟩ := exec_ok M.exec_eq
    obtain ⟨hi, rfl⟩ := List.getElem?_eq_some_iff.1 ht
    have hcl := mapOutcome_length hc
    refine ⟨cells[i], selector states.length i :: ext i,
      (mapOutcome_mem hc).2 i hi (by omega), ?_⟩
    · rw [M.rows_eq, List.append_assoc, List.append_assoc, List.getElem?_append_left (by omega), he,
        List.getElem?_mapIdx, List.getElem?_eq_getElem (by omega)]
      rfl

/-- The main trace of `simple_program` is built: eight rows for three steps. -/
example : buildMainTrace Examples.states Examples.mem Examples.pi0
      = .ok Examples.main0 ∧ Examples.main0.1.length = 8 ∧
    Examples.states.length = 3 :=
  ⟨Examples.main0_eq, Examples.main0_length, rfl⟩

/-- **C21.** The eight limbs of a builtin value are 16-bit numbers that re-assemble to the low 128
bits of the value; on a row containing the limbs and the value, the builtin constraint holds exactly
when the value is below `2^128`. -/
theorem C21_rc_decomposition (v : FE) :
    (decomposeRc v).length = 8 ∧
    (∀ x ∈ decomposeRc v, x.val < 2 ^ 16) ∧
    (∑ k ∈ Finset.range 8, ((decomposeRc v).getD k 0).val * 2 ^ (16 * k)) = v.val % 2 ^ 128 ∧
    ∀ row : Nat → FE, (∀ k < 8, row (34 + k) = (decomposeRc v).getD k 0) → row 42 = v →
      (rangeCheckBuiltin row = 0 ↔ v.val < 2 ^ 128) := by
  have hP : 2 ^ 16 < P := lt_trans (by norm_num) P_gt
  have hlt : ∀ k, v.val / 2 ^ (16 * k) % 2 ^ 16 < P := fun k =>
    lt_trans (Nat.mod_lt _ (by norm_num)) hP
  refine ⟨by simp [decomposeRc], ?_, ?_, ?_⟩
  · intro x hx
    obtain ⟨k, hk, rfl⟩ := List.mem_map.1 hx
    rw [limb_eq, ZMod.val_natCast_of_lt (hlt k)]
    exact Nat.mod_lt _ (by norm_num)
  · have : ∀ k ∈ Finset.range 8, ((decomposeRc v).getD k 0).val * 2 ^ (16 * k)
        = v.val / 2 ^ (16 * k) % 2 ^ 16 * 2 ^ (16 * k) := by
      intro k hk
      have hk := Finset.mem_range.1 hk
      congr 1
      rw [← ZMod.val_natCast_of_lt (hlt k), ← limb_eq]
      simp [decomposeRc, hk]
    rw [Finset.sum_congr rfl this, ← limbs_sum]
    simp [Finset.sum_range_succ]
  · intro row hl hv
    rw [rangeCheckBuiltin_decompose row v hl hv, rangeCheckBuiltin_iff]

/-- Values on both sides of the bound, with different limbs. -/
example : decomposeRc (2 ^ 112 * 9 + 2 ^ 16 * 7 + 5) = [5, 7, 0, 0, 0, 0, 0, 9] ∧
    (2 ^ 112 * 9 + 2 ^ 16 * 7 + 5 : FE).val < 2 ^ 128 ∧ ¬ (2 ^ 128 + 1 : FE).val < 2 ^ 128 := by
  decide +kernel

end Verif.Props
