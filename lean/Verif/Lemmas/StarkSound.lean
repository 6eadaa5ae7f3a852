import Verif.Lemmas.DeepSound
import Verif.Lemmas.OutOfDomain

/-!
# Soundness of the constraint composition for draws of the coefficients

As in `Verif.Lemmas.OutOfDomain`, for polynomials whose degree may be the trace length.
-/

namespace Verif.Proximity
open Polynomial Spec
variable {F Ch : Type} [Field F]

theorem combinedPoly_degree_le {air : Air F Ch} {ch : Ch} {cs : List (MvPolynomial (Nat × Nat) F)}
    (hfit : Fits air) (hc : PolynomialConstraints air ch cs) (hn : 2 ≤ air.traceLength) {polys : List F[X]}
    (hp : ∀ p ∈ polys, p.degree < ((air.traceLength + 1 : Nat) : WithBot Nat)) (g : F)
    (boundary : List (BoundaryConstraint F)) (boundaryCoeffs transitionCoeffs : List (F × F)) :
    (combinedPoly air g polys boundary cs boundaryCoeffs transitionCoeffs).degree
      < ((4 * air.traceLength + 1 : Nat) : WithBot Nat) := by
  unfold combinedPoly
  have hbg := hfit.bound_ge
  have hbl := hfit.bound_le
  refine lt_of_le_of_lt (degree_add_le _ _) (max_lt ?_ ?_)
  · refine list_sum_degree_lt fun p hp' => ?_
    obtain ⟨⟨c, α, β⟩, -, rfl⟩ := List.mem_map.mp hp'
    apply degree_lt_of_natDegree_lt
    simp only
    have h1 : (polys.getD c.col 0 - C c.value).natDegree < air.traceLength + 1 := by
      rw [natDegree_sub_C]
      exact getD_natDegree hp (by omega) _
    have h2 := othersPoly_natDegree g (Nat.mod_lt c.step (show air.traceLength > 0 by omega))
    have h3 := adjust_natDegree α β (air.compositionPolyDegreeBound - air.traceLength)
    have h4 := natDegree_mul_le (p := polys.getD c.col 0 - C c.value)
      (q := othersPoly g air.traceLength (c.step % air.traceLength))
    refine lt_of_le_of_lt natDegree_mul_le ?_
    omega
  · refine list_sum_degree_lt fun p hp' => ?_
    obtain ⟨⟨⟨⟨c, d⟩, e⟩, α, β⟩, hx, rfl⟩ := List.mem_map.mp hp'
    obtain ⟨i, h1, h2, h3⟩ := mem_zip3 (List.of_mem_zip hx).1
    have hdm := List.mem_of_getElem? h2
    have hd1 := hfit.degrees_pos d hdm
    have hdb := hfit.bound_degrees d hdm
    have he := hfit.exemptions_lt e (List.mem_of_getElem? h3)
    have hbe := hfit.bound_exemptions i d e h2 h3
    have hcd := constraintPoly_natDegree hp air.context.transitionOffsets g c (hc.degrees i c d h1 h2)
    apply degree_lt_of_natDegree_lt
    simp only
    have h4 := natDegree_mul_le (p := constraintPoly polys air.context.transitionOffsets g c)
      (q := exemption g air.traceLength e)
    rw [exemption_degree g _ e he.le] at h4
    have h5 := adjust_natDegree α β (air.compositionPolyDegreeBound - air.traceLength * (d - 1))
    refine lt_of_le_of_lt natDegree_mul_le ?_
    obtain ⟨d', rfl⟩ : ∃ d', d = d' + 1 := ⟨d - 1, by omega⟩
    generalize air.compositionPolyDegreeBound = bound at *
    generalize air.traceLength = n at *
    simp only [Nat.add_sub_cancel] at *
    have hd3 : d' ≤ 2 := by
      by_contra hcon
      have : n * 3 ≤ n * d' := Nat.mul_le_mul_left _ (by omega)
      omega
    have h6 : (d' + 1) * n = n * d' + n := by ring
    rw [h6] at hcd
    omega

variable [DecidableEq F] {ta : TwoAdic F} {d : Domain F} {a b : Nat} {h g w : F}

/-- Enough accepted points make the combination vanish in every row. -/
theorem combined_zero_le (D : IsDomain ta d a b h g w) {air : Air F Ch} (hfit : Fits air) (ha : 1 ≤ a)
    (hn : air.traceLength = 2 ^ a) {ch : Ch} {cs : List (MvPolynomial (Nat × Nat) F)}
    (hc : PolynomialConstraints air ch cs) {polys : List F[X]} (hp : polys.length = air.context.traceColumns)
    (hdeg : ∀ p ∈ polys, p.degree < ((2 ^ a + 1 : Nat) : WithBot Nat))
    {boundary : List (BoundaryConstraint F)} (hb : air.boundaryConstraints ch = .ok boundary)
    (hcols : ∀ c ∈ boundary, c.col < polys.length) {even odd : F[X]}
    (heven : even.degree < ((2 ^ a + 1 : Nat) : WithBot Nat))
    (hodd : odd.degree < ((2 ^ a + 1 : Nat) : WithBot Nat)) {bC tC : List (F × F)} {S : Finset F}
    (hS : 4 * 2 ^ a + 1 ≤ S.card)
    (ho : ∀ z ∈ S, OodAccepts air d polys even odd ch bC tC z) {i : Nat} (hi : i < 2 ^ a) :
    combinedAtRow air g polys boundary (constraintsAt cs polys air.context.transitionOffsets g (g ^ i)) bC tC i
      = 0 := by
  have hpos : 0 < 2 ^ a := by positivity
  have hn2 : 2 ≤ air.traceLength := by
    rw [hn]
    calc 2 = 2 ^ 1 := rfl
      _ ≤ 2 ^ a := Nat.pow_le_pow_right (by norm_num) ha
  have hg : IsPrimitiveRoot g air.traceLength := by rw [hn]; exact D.g_primitive
  have hH : ((X ^ air.traceLength - 1 : F[X]) * (even.comp (X ^ 2) + X * odd.comp (X ^ 2))).degree
      < ((4 * air.traceLength + 1 : Nat) : WithBot Nat) := by
    apply degree_lt_of_natDegree_lt
    have h1 := natDegree_lt_of_degree_lt (Nat.succ_pos _) heven
    have h2 := natDegree_lt_of_degree_lt (Nat.succ_pos _) hodd
    have h3 : (even.comp (X ^ 2)).natDegree = even.natDegree * 2 := by rw [natDegree_comp, natDegree_X_pow]
    have h4 : (odd.comp (X ^ 2)).natDegree = odd.natDegree * 2 := by rw [natDegree_comp, natDegree_X_pow]
    have h5 := natDegree_mul_le (p := (X : F[X])) (q := odd.comp (X ^ 2))
    rw [natDegree_X] at h5
    have h6 := natDegree_add_le (even.comp (X ^ 2)) (X * odd.comp (X ^ 2))
    refine lt_of_le_of_lt natDegree_mul_le ?_
    rw [pow_sub_one_natDegree]
    rw [← hn] at h1 h2
    omega
  have heq := eq_of_degrees_lt_of_eval_finset_eq S
    (lt_of_lt_of_le (combinedPoly_degree_le hfit hc hn2 (by rw [hn]; exact hdeg) g boundary bC tC)
      (by rw [hn]; exact_mod_cast hS))
    (lt_of_lt_of_le hH (by rw [hn]; exact_mod_cast hS)) (fun z hz => by
      obtain ⟨h1, h2⟩ := oodAccepts_eq D hfit hn hc hp hb hcols (ho z hz)
      rw [combinedPoly_eval (by omega) hg _ _ _ z h1, ← h2]
      simp [eval_comp])
  have h1 := congrArg (eval (g ^ i)) heq
  rw [combinedPoly_eval_row _ _ _ (by rw [hn]; exact hi)] at h1
  rw [h1, eval_mul]
  simp only [eval_sub, eval_pow, eval_X, eval_one]
  rw [← pow_mul, Nat.mul_comm i, pow_mul g, hg.pow_eq_one, one_pow, sub_self, zero_mul]

/-! ## Draws of the coefficients -/

/-- The multipliers of the coefficients of the boundary constraints at row `i`. -/
noncomputable def boundaryWeights (air : Air F Ch) (g : F) (polys : List F[X])
    (boundary : List (BoundaryConstraint F)) (i : Nat) : List (F × F) :=
  boundary.map fun c => (if c.step % air.traceLength = i then
      ((polys.getD c.col 0).eval (g ^ i) - c.value) * (∏ j ∈ (Finset.range air.traceLength).erase i, (g ^ i - g ^ j))
    else 0, (g ^ i) ^ (air.compositionPolyDegreeBound - air.traceLength))

/-- The multipliers of the coefficients of the transition constraints at row `i`. -/
noncomputable def transitionWeights (air : Air F Ch) (g : F) (evals : List F) (i : Nat) : List (F × F) :=
  ((evals.zip air.context.transitionDegrees).zip air.context.transitionExemptions).map fun x =>
    (x.1.1 * (exemption g air.traceLength x.2).eval (g ^ i),
      (g ^ i) ^ (air.compositionPolyDegreeBound - air.traceLength * (x.1.2 - 1)))

omit [DecidableEq F] in
theorem weighted_sum (l : List (F × F)) (α β : List F) (hα : α.length = l.length) (hβ : β.length = l.length) :
    ((l.zip (α.zip β)).map fun x => x.1.1 * (x.2.1 * x.1.2 + x.2.2)).sum
      = (List.zipWith (fun p c => p.1 * p.2 * c) l α).sum + (List.zipWith (· * ·) (l.map (·.1)) β).sum := by
  induction l generalizing α β with
  | nil => simp
  | cons p l ih =>
    obtain ⟨x, α, rfl⟩ := List.exists_cons_of_length_eq_add_one hα
    obtain ⟨y, β, rfl⟩ := List.exists_cons_of_length_eq_add_one hβ
    simp only [List.zip_cons_cons, List.map_cons, List.sum_cons, List.zipWith_cons_cons]
    rw [ih α β (by simpa using hα) (by simpa using hβ)]
    ring

omit [DecidableEq F] in
theorem combinedAtRow_eq (air : Air F Ch) (g : F) (polys : List F[X]) (boundary : List (BoundaryConstraint F))
    (evals : List F) (i : Nat) (bC tC : List (F × F)) :
    combinedAtRow air g polys boundary evals bC tC i
      = (((boundaryWeights air g polys boundary i).zip bC).map fun x => x.1.1 * (x.2.1 * x.1.2 + x.2.2)).sum
        + (((transitionWeights air g evals i).zip tC).map fun x => x.1.1 * (x.2.1 * x.1.2 + x.2.2)).sum := by
  unfold combinedAtRow boundaryWeights transitionWeights
  congr 1
  · congr 1
    rw [List.zip_map_left, List.map_map]
    refine List.map_congr_left fun x _ => ?_
    simp only [Function.comp_apply, Prod.map_fst, Prod.map_snd, id]
    split <;> ring
  · congr 1
    rw [List.zip_map_left, List.map_map]
    refine List.map_congr_left fun x _ => ?_
    simp only [Function.comp_apply, Prod.map_fst, Prod.map_snd, id]

/-- When a multiplier at row `i` is not zero, the combination at the row vanishes for few draws. -/
theorem row_draws (air : Air F Ch) (g : F) (polys : List F[X]) (boundary : List (BoundaryConstraint F))
    (evals : List F) (i : Nat) {nt : Nat} (hnt : (transitionWeights air g evals i).length = nt)
    (hne : (∃ p ∈ boundaryWeights air g polys boundary i, p.1 ≠ 0) ∨
      ∃ p ∈ transitionWeights air g evals i, p.1 ≠ 0) :
    AllButDraws 1 boundary.length fun αB => AllButDraws 1 boundary.length fun βB =>
      AllButDraws 1 nt fun αT => AllButDraws 1 nt fun βT =>
        combinedAtRow air g polys boundary evals (αB.zip βB) (αT.zip βT) i ≠ 0 := by
  have hbl : (boundaryWeights air g polys boundary i).length = boundary.length := by simp [boundaryWeights]
  by_cases ht : ∃ p ∈ transitionWeights air g evals i, p.1 ≠ 0
  · refine draws_true _ fun αB h1 => draws_true _ fun βB h2 => draws_true _ fun αT h3 => ?_
    have := draws_linear ((transitionWeights air g evals i).map (·.1))
      ((((boundaryWeights air g polys boundary i).zip (αB.zip βB)).map fun x => x.1.1 * (x.2.1 * x.1.2 + x.2.2)).sum
        + (List.zipWith (fun p c => p.1 * p.2 * c) (transitionWeights air g evals i) αT).sum) (by
        obtain ⟨p, hp, hp0⟩ := ht
        exact ⟨p.1, List.mem_map_of_mem hp, hp0⟩)
    rw [List.length_map, hnt] at this
    refine AllButDraws.mono le_rfl _ this fun βT h4 h5 => ?_
    rw [combinedAtRow_eq, weighted_sum (transitionWeights air g evals i) αT βT (by omega) (by omega)]
    rwa [← add_assoc]
  · have hb : ∃ p ∈ boundaryWeights air g polys boundary i, p.1 ≠ 0 := hne.resolve_right ht
    push Not at ht
    refine draws_true _ fun αB h1 => ?_
    have := draws_linear ((boundaryWeights air g polys boundary i).map (·.1))
      ((List.zipWith (fun p c => p.1 * p.2 * c) (boundaryWeights air g polys boundary i) αB).sum) (by
        obtain ⟨p, hp, hp0⟩ := hb
        exact ⟨p.1, List.mem_map_of_mem hp, hp0⟩)
    rw [List.length_map, hbl] at this
    refine AllButDraws.mono le_rfl _ this fun βB h2 h5 => ?_
    refine draws_true _ fun αT h3 => draws_true _ fun βT h4 => ?_
    rw [combinedAtRow_eq, weighted_sum (boundaryWeights air g polys boundary i) αB βB (by omega) (by omega)]
    have hz : (((transitionWeights air g evals i).zip (αT.zip βT)).map
        fun x => x.1.1 * (x.2.1 * x.1.2 + x.2.2)).sum = 0 := by
      refine List.sum_eq_zero fun y hy => ?_
      obtain ⟨x, hx, rfl⟩ := List.mem_map.mp hy
      rw [ht x.1 (List.of_mem_zip hx).1, zero_mul]
    rw [hz, add_zero]
    exact h5

/-- A trace that does not satisfy the AIR has a row with a multiplier other than zero. -/
theorem unsat_row (D : IsDomain ta d a b h g w) {air : Air F Ch} (hfit : Fits air)
    (hn : air.traceLength = 2 ^ a) {ch : Ch} {cs : List (MvPolynomial (Nat × Nat) F)}
    (hc : PolynomialConstraints air ch cs) (hcs : cs.length = air.context.numTransitionConstraints)
    {polys : List F[X]} (hp : polys.length = air.context.traceColumns)
    {boundary : List (BoundaryConstraint F)} (hb : air.boundaryConstraints ch = .ok boundary)
    (hcols : ∀ c ∈ boundary, c.col < polys.length ∧ c.step < 2 ^ a)
    (hsat : ¬ Satisfies air (d.traceRootsOfUnity.map fun x => polys.map fun p => p.eval x) polys.length ch) :
    ∃ i < 2 ^ a, (∃ p ∈ boundaryWeights air g polys boundary i, p.1 ≠ 0) ∨
      ∃ p ∈ transitionWeights air g (constraintsAt cs polys air.context.transitionOffsets g (g ^ i)) i, p.1 ≠ 0 := by
  have hpos : 0 < 2 ^ a := by positivity
  by_cases hbd : ∀ c ∈ boundary, (polys.getD c.col 0).eval (g ^ c.step) = c.value
  · have htr : ¬ ∀ (k : Nat) c e, cs[k]? = some c → air.context.transitionExemptions[k]? = some e →
        ∀ i, i + e < 2 ^ a → (constraintPoly polys air.context.transitionOffsets g c).eval (g ^ i) = 0 := by
      intro htr
      refine hsat ⟨⟨boundary, hb, fun c hcm => ?_⟩, fun i hi => ?_⟩
      · obtain ⟨h1, h2⟩ := hcols c hcm
        refine ⟨polys.map fun p => p.eval (g ^ c.step), ?_, ?_⟩
        · rw [D.traceRoots, List.map_map, List.getElem?_map, List.getElem?_range h2]; rfl
        · have := hbd c hcm
          rw [List.getD_eq_getElem?_getD, List.getElem?_eq_getElem h1] at this
          rw [List.getElem?_map, List.getElem?_eq_getElem h1, ← this]; rfl
      · rw [D.traceRoots, List.map_map, List.length_map, List.length_range] at hi
        refine ⟨constraintsAt cs polys air.context.transitionOffsets g (g ^ i), ?_, fun k x hx hix => ?_⟩
        · rw [← constraintsAt_computes hc hp g (g ^ i)]
          congr 1
          unfold frameAt frameRows
          congr 2
          refine List.map_congr_left fun o _ => ?_
          rw [D.traceRoots, List.map_map, List.length_map, List.length_range, List.getD_eq_getElem?_getD,
            List.getElem?_map, List.getElem?_range (Nat.mod_lt _ hpos)]
          simp only [Option.map_some, Option.getD_some, Function.comp_apply]
          rw [← pow_add, ← pow_eq_pow_mod _ D.g_primitive.pow_eq_one]
        · rw [D.traceRoots, List.map_map, List.length_map, List.length_range] at hix
          have hk : k < cs.length := by
            rw [hcs, ← hfit.exemptions_len]
            exact (List.getElem?_eq_some_iff.mp hx).1
          have := htr k cs[k] x (List.getElem?_eq_getElem hk) hx i hix
          rw [constraintPoly_eval] at this
          unfold constraintsAt
          rw [List.getElem?_map, List.getElem?_eq_getElem hk, Option.map_some, this]
    push Not at htr
    obtain ⟨k, c, e, hk, he, i, hi, hne⟩ := htr
    have hklt := (List.getElem?_eq_some_iff.mp hk).1
    obtain ⟨dg, hdg⟩ : ∃ dg, air.context.transitionDegrees[k]? = some dg :=
      ⟨_, List.getElem?_eq_getElem (by rw [hfit.degrees_len, ← hcs]; exact hklt)⟩
    have hex : (exemption g air.traceLength e).eval (g ^ i) ≠ 0 := by
      intro h0
      obtain ⟨j, hj1, hj2, hj3⟩ := (exemption_eval _ _ _ _).mp h0
      rw [hn] at hj1 hj2
      have := D.g_primitive.pow_inj (by omega) hj2 hj3
      omega
    refine ⟨i, by omega, Or.inr ⟨_, List.mem_map_of_mem (a := (((constraintPoly polys air.context.transitionOffsets g c).eval
      (g ^ i), dg), e)) (List.mem_of_getElem? (i := k) ?_), mul_ne_zero hne hex⟩⟩
    rw [List.getElem?_zip_eq_some, List.getElem?_zip_eq_some]
    refine ⟨⟨?_, hdg⟩, he⟩
    unfold constraintsAt
    rw [List.getElem?_map, hk, Option.map_some, constraintPoly_eval]
  · push Not at hbd
    obtain ⟨c, hcm, hne⟩ := hbd
    have hstep := (hcols c hcm).2
    have hmod : c.step % air.traceLength = c.step := by rw [hn]; exact Nat.mod_eq_of_lt hstep
    have hprod : (∏ j ∈ (Finset.range air.traceLength).erase c.step, (g ^ c.step - g ^ j)) ≠ 0 := by
      refine Finset.prod_ne_zero_iff.mpr fun j hj => ?_
      obtain ⟨hj1, hj2⟩ := Finset.mem_erase.mp hj
      rw [sub_ne_zero]
      intro heq
      rw [hn, Finset.mem_range] at hj2
      exact hj1 (D.g_primitive.pow_inj hstep hj2 heq).symm
    refine ⟨c.step, hstep, Or.inl ⟨_, List.mem_map_of_mem hcm, ?_⟩⟩
    simp only [if_pos hmod]
    exact mul_ne_zero (sub_ne_zero.mpr hne) hprod

end Verif.Proximity
