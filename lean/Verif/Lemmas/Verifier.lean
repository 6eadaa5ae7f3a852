import Verif.Lemmas.Composition

/-!
# Lemmas about the steps of the verifier
-/

namespace Verif
open Polynomial Spec
variable {F T Ch : Type} [Field F] [DecidableEq F]
variable {ta : TwoAdic F} {d : Domain F} {a b : Nat} {h g w : F}

theorem oodBoundary_ok (D : IsDomain ta d a b h g w) {proof : StarkProof F}
    {boundary : List (BoundaryConstraint F)} {z : F} (hz : z ^ 2 ^ a ≠ 1) {row0 : List F}
    (hrow : proof.traceOodFrameEvaluations.getRow 0 = (.ok row0 : Outcome Empty _))
    (hcols : ∀ c ∈ boundary, c.col < row0.length) (coeffs : List (F × F)) (n bound : Nat) :
    oodBoundary proof boundary d z coeffs (bound - n)
      = .ok (boundaryAt g z n bound (fun j => row0.getD j 0) boundary coeffs) := by
  unfold oodBoundary
  rw [mapOutcome_eq_map (g := fun c : BoundaryConstraint F =>
    (row0.getD c.col 0 - c.value, z - g ^ c.step)), Outcome.bind_ok, batchInverse_ok, Outcome.bind_ok,
    Outcome.pure_eq]
  · refine congrArg Outcome.ok ?_
    rw [foldl_add_sum, zero_add]
    unfold boundaryAt
    congr 1
    refine List.ext_getElem (by simp) fun j h1 h2 => ?_
    simp only [List.getElem_map, List.getElem_zip]
    rw [div_eq_mul_inv]
  · intro x hx
    rw [List.map_map] at hx
    obtain ⟨c, -, rfl⟩ := List.mem_map.mp hx
    refine sub_ne_zero.mpr ?_
    rintro rfl
    exact hz (by rw [← pow_mul, mul_comm, pow_mul, D.g_primitive.pow_eq_one, one_pow])
  · intro c hc
    have := hcols c hc
    rw [hrow, Outcome.bind_ok, index_ok (List.getElem?_eq_getElem this), Outcome.bind_ok, Outcome.pure_eq,
      D.tracePrimitiveRoot]
    simp [List.getD, List.getElem?_eq_getElem this]

theorem oodTransition_ok {air : Air F Ch} (hfit : Fits air) {n : Nat} (hn : air.traceLength = n) {z : F} {m : Nat}
    (hm : air.context.transitionDegrees.max? = some m) {l : List F[X]} {me : Nat}
    (hme : air.context.transitionExemptions.max? = some me)
    (hl : ∀ i, i < me → i < n → l[i]? = some (exemption g n (i + 1)))
    (evals : List F) (coeffs : List (F × F)) :
    oodTransition air evals (z ^ n - 1)⁻¹ (l.map (·.eval z))
      ((List.range m).map fun k => z ^ (air.compositionPolyDegreeBound - n * k)) coeffs
      = .ok (transitionAt g z n air.compositionPolyDegreeBound evals
          air.context.transitionDegrees air.context.transitionExemptions coeffs) := by
  unfold oodTransition transitionAt
  rw [foldlM_sum, zero_add]
  rintro ⟨⟨⟨v, dg⟩, e⟩, α, β⟩ hx acc
  have hx1 := (List.of_mem_zip hx).1
  have he : e ∈ air.context.transitionExemptions := (List.of_mem_zip hx1).2
  have hdg : dg ∈ air.context.transitionDegrees := (List.of_mem_zip (List.of_mem_zip hx1).1).2
  have hd1 := hfit.degrees_pos dg hdg
  have hdm : dg ≤ m := (List.max?_eq_some_iff.mp hm).2 dg hdg
  have hem : e ≤ me := (List.max?_eq_some_iff.mp hme).2 e he
  have hen := hfit.exemptions_lt e he
  rw [hn] at hen
  have hadj : index ((List.range m).map fun k => z ^ (air.compositionPolyDegreeBound - n * k)) (dg - 1)
      = (.ok (z ^ (air.compositionPolyDegreeBound - n * (dg - 1))) : Outcome Empty F) :=
    index_ok (by rw [List.getElem?_map, List.getElem?_range (by omega)]; rfl)
  by_cases h0 : e = 0
  · subst h0
    simp only [if_true, Outcome.bind_ok, checkedSub, if_pos hd1, hadj, Outcome.pure_eq, exemption_zero,
      eval_one, Outcome.ok.injEq]
    rw [div_eq_mul_inv]
    ring
  · have hex : index (l.map (·.eval z)) (e - 1)
        = (.ok ((exemption g n e).eval z) : Outcome Empty F) := by
      apply index_ok
      rw [List.getElem?_map, hl (e - 1) (by omega) (by omega), Nat.sub_add_cancel (by omega)]
      rfl
    simp only [h0, if_false, hex, Outcome.bind_ok, checkedSub, if_pos hd1, hadj, Outcome.pure_eq,
      Outcome.ok.injEq]
    rw [div_eq_mul_inv]
    ring

theorem Spec.Fits.maxExemption {air : Air F Ch} (hfit : Fits air) :
    ∃ m, air.context.transitionExemptions.max? = some m := by
  cases h : air.context.transitionExemptions.max? with
  | none =>
    have h1 := List.max?_eq_none_iff.mp h
    have h2 := hfit.exemptions_len
    have h3 := hfit.constraints_pos
    rw [h1] at h2
    simp at h2
    omega
  | some m => exact ⟨m, rfl⟩

/-- What the out-of-domain check compares. -/
theorem step2_eq (D : IsDomain ta d a b h g w) {air : Air F Ch} (hfit : Fits air)
    (hn : air.traceLength = 2 ^ a) {proof : StarkProof F} {c : Challenges F Ch} (hz : c.z ^ 2 ^ a ≠ 1)
    {boundary : List (BoundaryConstraint F)} (hb : air.boundaryConstraints c.rapChallenges = .ok boundary)
    {row0 : List F} (hrow : proof.traceOodFrameEvaluations.getRow 0 = (.ok row0 : Outcome Empty _))
    (hcols : ∀ c ∈ boundary, c.col < row0.length) {evals : List F}
    (hev : air.computeTransition proof.traceOodFrameEvaluations c.rapChallenges = .ok evals) :
    step2 air proof d c = .ok (decide (proof.compositionPolyEvenOodEvaluation
        + c.z * proof.compositionPolyOddOodEvaluation
      = compositionOf air g (fun j => row0.getD j 0) boundary evals c.boundaryCoeffs c.transitionCoeffs
          c.z)) := by
  unfold step2
  obtain ⟨m, hm⟩ := hfit.max
  obtain ⟨me, hme⟩ := hfit.maxExemption
  have hpos : 0 < 2 ^ a := by positivity
  obtain ⟨l, hl1, hl2, hl3⟩ := transitionExemptionsVerifier_eq (g := g) D.g_primitive.pow_eq_one hpos hme
  have hlast : d.traceRootsOfUnity.getLast? = some (g ^ (2 ^ a - 1)) := by
    rw [D.traceRoots, List.getLast?_map, List.getLast?_range, if_neg (by omega)]; rfl
  have hadj := hfit.adjustments hm (f := fun k => c.z ^ k)
  rw [hb, Outcome.bind_ok]
  simp only [checkedSub, if_pos hfit.bound_ge, Outcome.bind_ok]
  rw [oodBoundary_ok D hz hrow hcols, Outcome.bind_ok, hev, Outcome.bind_ok]
  simp only [invOrPanic, hn, if_neg (sub_ne_zero.mpr hz), Outcome.bind_ok, hlast, Outcome.ofOptionUnwrap, hl1,
    hm]
  simp only [hn, checkedSub] at hadj
  rw [hadj, Outcome.bind_ok, oodTransition_ok hfit hn hm hme hl3, Outcome.bind_ok, Outcome.pure_eq]
  unfold compositionOf
  rw [hn]

end Verif
