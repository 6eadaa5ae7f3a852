import Verif.Lemmas.Rounds

/-! The width of the trace that the prover evaluates the constraints on. -/

namespace Verif
open Polynomial TraceTable
variable {F Ch T : Type} [Field F] [DecidableEq F]

theorem cycleTake_length {α : Type} {orig : List α} (h : orig ≠ []) :
    ∀ (k : Nat) (it : List α), (cycleTake orig it k).length = k
  | 0, it => by cases it <;> rfl
  | k + 1, x :: it => by simp [cycleTake, cycleTake_length h k it]
  | k + 1, [] => by
    cases orig with
    | nil => exact absurd rfl h
    | cons x it => simp [cycleTake, cycleTake_length h k it]

/-- When the constraints are evaluated, then on a frame of the width of the trace. -/
theorem evaluate_frame {ta : TwoAdic F} {air : Air F Ch} {boundary : List (BoundaryConstraint F)}
    {ldeTrace : TraceTable F} {domain : Domain F} {tc bc : List (F × F)} {ch : Ch} {v : List F}
    (h : evaluateConstraints ta air boundary ldeTrace domain tc bc ch = .ok v)
    (hl : domain.ldeRootsOfUnityCoset ≠ []) (hb : 0 < air.context.proofOptions.blowupFactor.toNat) :
    ∃ frame evs, frame.rowWidth = ldeTrace.nCols ∧ air.computeTransition frame ch = .ok evs := by
  unfold evaluateConstraints at h
  simp only [Outcome.bind_eq_ok] at h
  obtain ⟨bz, -, adj, -, h⟩ := h
  split at h
  · cases h
  simp only [Outcome.bind_eq_ok] at h
  obtain ⟨be, hbe, ex, -, ee, -, md, -, da, -, powers, hp, zs, hz, h⟩ := h
  have hlen := List.length_pos_iff.2 hl
  have hbl := (mapOutcome_mem hbe).1
  rw [List.length_zip, List.length_range, List.length_map, Nat.min_self] at hbl
  obtain ⟨w, -, rfl⟩ := powersCoset_ok.1 hp
  have hzs : zs ≠ [] := by
    unfold batchInverse at hz
    split at hz
    · cases hz
    · cases hz
      simp only [ne_eq, List.map_eq_nil_iff, List.range_eq_nil]
      omega
  have hk := cycleTake_length hzs domain.ldeRootsOfUnityCoset.length zs
  generalize hlist : ((List.range domain.ldeRootsOfUnityCoset.length).zip be).zip
    (cycleTake zs zs domain.ldeRootsOfUnityCoset.length) = l at h
  have hpos : 0 < l.length := by
    rw [← hlist, List.length_zip, List.length_zip, List.length_range, hbl, hk]
    omega
  cases l with
  | nil => simp at hpos
  | cons x l =>
    unfold mapOutcome at h
    simp only [Outcome.bind_eq_ok] at h
    obtain ⟨y, hy, -⟩ := h
    unfold evaluateRow at hy
    simp only [Outcome.bind_eq_ok] at hy
    obtain ⟨frame, hf, evs, he, -⟩ := hy
    refine ⟨frame, evs, ?_, he⟩
    unfold Frame.readFromTrace at hf
    simp only [Outcome.bind_eq_ok, Outcome.pure_eq, Outcome.ok.injEq] at hf
    obtain ⟨rows, -, rfl⟩ := hf
    rfl

end Verif
