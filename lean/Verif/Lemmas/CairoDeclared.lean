import Verif.Spec.Air
import Verif.Lemmas.CairoAir
import Verif.Lemmas.Validate

/-! The Cairo AIR declares data that fit together. -/

namespace Verif.CairoAir
open Spec

theorem boundaryConstraints_ok {pi : PublicInputs} {n : Nat} {ch : RAPChallenges FE}
    {cs : List (BoundaryConstraint FE)} (h : boundaryConstraints pi n ch = .ok cs) :
    pi.numSteps ≠ 0 ∧ n ≠ 0 ∧
    ∃ lo hi, pi.rangeCheckMin = some lo ∧ pi.rangeCheckMax = some hi ∧
    (pi.publicMemory.foldl
      (fun product e => product * (ch.zMemory - (e.1 + ch.alphaMemory * e.2))) 1) ≠ 0 ∧
    cs = [
      ⟨MEM_A_TRACE_OFFSET, 0, pi.pcInit⟩,
      ⟨MEM_P_TRACE_OFFSET, 0, pi.apInit⟩,
      ⟨MEM_A_TRACE_OFFSET, pi.numSteps - 1, pi.pcFinal⟩,
      ⟨MEM_P_TRACE_OFFSET, pi.numSteps - 1, pi.apFinal⟩,
      ⟨PERMUTATION_ARGUMENT_COL_0 + 3 - builtinOffset (hasRcBuiltin pi), n - 1,
        ch.zMemory ^ pi.publicMemory.length * (pi.publicMemory.foldl
      (fun product e => product * (ch.zMemory - (e.1 + ch.alphaMemory * e.2))) 1)⁻¹⟩,
      ⟨PERMUTATION_ARGUMENT_RANGE_CHECK_COL_1 + 2 - builtinOffset (hasRcBuiltin pi), n - 1, 1⟩,
      ⟨RANGE_CHECK_COL_1 - builtinOffset (hasRcBuiltin pi), 0, (lo.toNat : FE)⟩,
      ⟨RANGE_CHECK_COL_3 - builtinOffset (hasRcBuiltin pi), n - 1, (hi.toNat : FE)⟩] := by
  unfold boundaryConstraints at h
  split at h
  · cases h
  next hc =>
    simp only [Outcome.bind_eq_ok, Outcome.pure_eq, Outcome.ok.injEq] at h
    obtain ⟨c, hc', lo, hlo, hi, hhi, rfl⟩ := h
    unfold inv at hc'
    split at hc'
    · cases hc'
    next hne =>
      simp only [Outcome.ok.injEq] at hc'
      subst hc'
      push Not at hc
      refine ⟨hc.1, hc.2, lo, hi, ?_, ?_, hne, rfl⟩
      · cases hm : pi.rangeCheckMin <;> simp_all [Outcome.ofOptionUnwrap]
      · cases hm : pi.rangeCheckMax <;> simp_all [Outcome.ofOptionUnwrap]

theorem declared (n : Nat) (pi : PublicInputs) (opts : ProofOptions) (ch : RAPChallenges FE)
    (hn : 0 < n) (hsteps : pi.numSteps ≤ n) :
    Declared (air n pi opts) n (traceColumns (hasRcBuiltin pi)) ch where
  width_pos := by simp [traceColumns]
  rows_pos := hn
  exemptions_len := by
    simp only [air, transitionExemptions, numTransitionConstraints]
    cases hasRcBuiltin pi <;> rfl
  exemptions_le := by
    intro x hx
    simp only [air] at hx
    have : ∀ b, ∀ x ∈ transitionExemptions b, x ≤ 1 := by decide
    have := this _ x hx
    omega
  evals_len := by
    intro frame evals h
    simp only [air, computeTransitionFrame, Outcome.bind_eq_ok] at h
    obtain ⟨c, -, c', -, h⟩ := h
    split at h
    · simp only [Outcome.pure_eq, Outcome.ok.injEq] at h
      rw [← h, computeTransition_length]; rfl
    · cases h
  boundary_in := by
    intro cs h c hc
    obtain ⟨h1, h2, lo, hi, -, -, -, rfl⟩ := boundaryConstraints_ok h
    have hoff : builtinOffset (hasRcBuiltin pi) = 0 ∧ traceColumns (hasRcBuiltin pi) = 61 ∨
        builtinOffset (hasRcBuiltin pi) = 9 ∧ traceColumns (hasRcBuiltin pi) = 52 := by
      cases hasRcBuiltin pi <;> decide
    simp only [List.mem_cons, List.not_mem_nil, or_false] at hc
    rcases hc with rfl | rfl | rfl | rfl | rfl | rfl | rfl | rfl <;>
      simp only [MEM_A_TRACE_OFFSET, MEM_P_TRACE_OFFSET, PERMUTATION_ARGUMENT_COL_0,
        PERMUTATION_ARGUMENT_RANGE_CHECK_COL_1, RANGE_CHECK_COL_1, RANGE_CHECK_COL_3] <;> omega

/-- `compute_transition` on the frame at row `i`. -/
theorem computeTransitionFrame_frameAt (hasRc : Bool) (ch : RAPChallenges FE)
    (rows : List (List FE)) (hrect : ∀ r ∈ rows, r.length = traceColumns hasRc)
    (i : Nat) (hi : i < rows.length) :
    computeTransitionFrame hasRc (frameAt rows (traceColumns hasRc) [0, 1] i) ch =
      .ok (computeTransition hasRc ch (cell rows i) (cell rows ((i + 1) % rows.length))) := by
  have hlt : (i + 1) % rows.length < rows.length := Nat.mod_lt _ (by omega)
  have h2 : ∀ r ∈ [rows.getD i [], rows.getD ((i + 1) % rows.length) []],
      r.length = traceColumns hasRc := by
    intro r hr
    simp only [List.mem_cons, List.not_mem_nil, or_false] at hr
    rcases hr with rfl | rfl
    · rw [List.getD_eq_getElem _ _ hi]; exact hrect _ (List.getElem_mem _)
    · rw [List.getD_eq_getElem _ _ hlt]; exact hrect _ (List.getElem_mem _)
  unfold computeTransitionFrame
  have h0 := subslice_flatten (ε := Empty) _ _ h2 0 (by simp)
  have h1 := subslice_flatten (ε := Empty) _ _ h2 1 (by simp)
  have hframe : frameAt rows (traceColumns hasRc) [0, 1] i =
      ⟨[rows.getD i [], rows.getD ((i + 1) % rows.length) []].flatten, traceColumns hasRc⟩ := by
    simp [frameAt, Nat.mod_eq_of_lt hi]
  rw [hframe]
  simp only [Frame.getRow]
  rw [h0, h1]
  simp only [Outcome.bind_ok, le_refl, if_true]
  rfl

/-- Satisfying the Cairo AIR, cell by cell. -/
theorem satisfies_iff (pi : PublicInputs) (opts : ProofOptions) (ch : RAPChallenges FE)
    (rows : List (List FE)) (hrect : ∀ r ∈ rows, r.length = traceColumns (hasRcBuiltin pi)) :
    Satisfies (air rows.length pi opts) rows (traceColumns (hasRcBuiltin pi)) ch ↔
      (∃ cs, boundaryConstraints pi rows.length ch = .ok cs ∧
        ∀ c ∈ cs, ∃ row, rows[c.step]? = some row ∧ row[c.col]? = some c.value) ∧
      ∀ i < rows.length, ∀ (k x : Nat), (transitionExemptions (hasRcBuiltin pi))[k]? = some x →
        i + x < rows.length →
        (computeTransition (hasRcBuiltin pi) ch (cell rows i)
          (cell rows ((i + 1) % rows.length)))[k]? = some 0 := by
  constructor
  · rintro ⟨hb, ht⟩
    refine ⟨hb, fun i hi k x hx hlt => ?_⟩
    obtain ⟨evals, he, hz⟩ := ht i hi
    have he' := computeTransitionFrame_frameAt (hasRcBuiltin pi) ch rows hrect i hi
    change computeTransitionFrame (hasRcBuiltin pi) _ ch = _ at he
    have hev := Outcome.ok.inj (he'.symm.trans he)
    rw [hev]
    exact hz k x hx hlt
  · rintro ⟨hb, ht⟩
    refine ⟨hb, fun i hi => ?_⟩
    exact ⟨_, computeTransitionFrame_frameAt (hasRcBuiltin pi) ch rows hrect i hi,
      fun k x hx hlt => ht i hi k x hx hlt⟩

end Verif.CairoAir
