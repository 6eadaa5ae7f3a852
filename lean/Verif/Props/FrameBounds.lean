import Verif.Props.TraceTable
import Verif.Lemmas.HonestExists

/-!
# C34: when a frame cannot be read
-/

namespace Verif.Props
open TraceTable

/-- **C34**, when there is a frame: reading a frame panics exactly when at least one row is asked for and the table has no
rows, whatever the step, the blowup and the offsets; the table need not consist of complete rows. -/
theorem C34_frame_panics {F : Type} (t : TraceTable F) (step blowup : Nat) (offsets : List Nat) :
    ((Frame.readFromTrace t step blowup offsets : Outcome Empty _) = .panic ↔
      offsets ≠ [] ∧ (t.table.length < t.nCols ∨ t.nCols = 0)) ∧
    ((∃ frame, (Frame.readFromTrace t step blowup offsets : Outcome Empty _) = .ok frame) ↔
      offsets = [] ∨ 0 < t.nCols ∧ t.nCols ≤ t.table.length) := by
  have h0 : t.nRows = 0 ↔ t.table.length < t.nCols ∨ t.nCols = 0 := by
    unfold nRows
    split
    · simp [*]
    · rename_i h
      rw [Nat.div_eq_zero_iff]
      tauto
  have hrow : t.nRows ≠ 0 → ∃ frame, (Frame.readFromTrace t step blowup offsets : Outcome Empty _) = .ok frame := by
    intro hn
    have hw : t.nCols ≠ 0 := fun h => hn (h0.2 (.inr h))
    obtain ⟨rows, hrows⟩ := ExecTrace.mapOutcome_exists (ε := Empty)
      (f := fun o => if t.nRows = 0 then .panic else t.getRow ((step + o * blowup) % t.nRows)) (l := offsets)
      fun o _ => by
        rw [if_neg hn]
        have hlt := Nat.mod_lt (step + o * blowup) (Nat.pos_of_ne_zero hn)
        generalize (step + o * blowup) % t.nRows = i at hlt
        refine ⟨_, if_pos ⟨Nat.le_add_right _ _, ?_⟩⟩
        have h1 : (i + 1) * t.nCols ≤ t.nRows * t.nCols := Nat.mul_le_mul_right _ hlt
        have h2 : t.nRows * t.nCols ≤ t.table.length := by
          unfold nRows
          rw [if_neg hw]
          exact Nat.div_mul_le_self _ _
        rw [← Nat.succ_mul]
        exact h1.trans h2
    refine ⟨⟨rows.flatten, t.nCols⟩, ?_⟩
    unfold Frame.readFromTrace
    rw [hrows]
    rfl
  have hnil : offsets = [] → (Frame.readFromTrace t step blowup offsets : Outcome Empty _) = .ok ⟨[], t.nCols⟩ := by
    rintro rfl
    rfl
  have hpanic : t.nRows = 0 → offsets ≠ [] → (Frame.readFromTrace t step blowup offsets : Outcome Empty _) = .panic := by
    intro hn ho
    cases offsets with
    | nil => exact absurd rfl ho
    | cons o l =>
      unfold Frame.readFromTrace
      simp only [hn, if_true]
      rfl
  by_cases ho : offsets = []
  · rw [hnil ho]
    simp [ho]
  · by_cases hn : t.nRows = 0
    · rw [hpanic hn ho]
      have := h0.1 hn
      simp only [ho, not_false_eq_true, ne_eq, true_and, false_or, reduceCtorEq, exists_false, false_iff, true_iff]
      omega
    · obtain ⟨frame, h⟩ := hrow hn
      rw [h]
      have := mt h0.2 hn
      simp only [ho, not_false_eq_true, ne_eq, true_and, false_or, reduceCtorEq, false_iff, Outcome.ok.injEq, exists_eq',
        true_iff]
      omega

/-- A table whose only row is not complete has no rows; with a complete row and a rest there is a frame. -/
example : (Frame.readFromTrace (⟨[1, 4], 3⟩ : TraceTable Nat) 0 1 [0] : Outcome Empty _) = .panic ∧
    (Frame.readFromTrace (⟨[1, 4], 3⟩ : TraceTable Nat) 0 1 [] : Outcome Empty _) = .ok ⟨[], 3⟩ ∧
    (Frame.readFromTrace (⟨[1, 4, 2, 5], 3⟩ : TraceTable Nat) 7 1 [0, 1] : Outcome Empty _) = .ok ⟨[1, 4, 2, 1, 4, 2], 3⟩ := by
  decide

end Verif.Props
