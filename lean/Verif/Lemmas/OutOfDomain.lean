import Verif.Lemmas.Complete
import Mathlib.LinearAlgebra.Lagrange

/-!
# Lemmas about the soundness of the out-of-domain check
-/

namespace Verif
open Polynomial Spec
variable {F T Ch : Type} [Field F]

/-- The polynomial vanishing on the trace domain except at row `i`. -/
noncomputable def othersPoly (g : F) (n i : Nat) : F[X] := ∏ j ∈ (Finset.range n).erase i, (X - C (g ^ j))

theorem prod_range_X_sub {n : Nat} (hn : 0 < n) {g : F} (hg : IsPrimitiveRoot g n) :
    (X ^ n - 1 : F[X]) = ∏ i ∈ Finset.range n, (X - C (g ^ i)) := by
  have : NeZero n := ⟨by omega⟩
  rw [X_pow_sub_one_eq_prod hn hg]
  symm
  refine Finset.prod_bij (fun i _ => g ^ i) ?_ ?_ ?_ ?_
  · intro i hi
    rw [mem_nthRootsFinset hn]
    rw [← pow_mul, mul_comm, pow_mul, hg.pow_eq_one, one_pow]
  · intro i hi j hj h
    exact hg.pow_inj (by simpa using hi) (by simpa using hj) h
  · intro x hx
    rw [mem_nthRootsFinset hn] at hx
    obtain ⟨i, hi, rfl⟩ := hg.eq_pow_of_pow_eq_one hx
    exact ⟨i, by simpa using hi, rfl⟩
  · intro i _; rfl

theorem othersPoly_mul {n : Nat} (hn : 0 < n) {g : F} (hg : IsPrimitiveRoot g n) {i : Nat} (hi : i < n) :
    (X - C (g ^ i)) * othersPoly g n i = X ^ n - 1 := by
  rw [prod_range_X_sub hn hg, othersPoly, Finset.mul_prod_erase _ (fun j => X - C (g ^ j)) (Finset.mem_range.mpr hi)]

theorem othersPoly_natDegree (g : F) {n i : Nat} (hi : i < n) : (othersPoly g n i).natDegree = n - 1 := by
  unfold othersPoly
  rw [natDegree_prod_of_monic _ _ fun j _ => monic_X_sub_C _]
  simp only [natDegree_X_sub_C, Finset.sum_const, smul_eq_mul, mul_one]
  rw [Finset.card_erase_of_mem (Finset.mem_range.mpr hi), Finset.card_range]

theorem othersPoly_eval_ne (g : F) {n i k : Nat} (hk : k < n) (h : i ≠ k) :
    (othersPoly g n i).eval (g ^ k) = 0 := by
  unfold othersPoly
  rw [eval_prod]
  refine Finset.prod_eq_zero (i := k) (Finset.mem_erase.mpr ⟨h.symm, Finset.mem_range.mpr hk⟩) ?_
  simp

/-- The combination of the constraints free of denominators, as a polynomial. -/
noncomputable def combinedPoly (air : Air F Ch) (g : F) (polys : List F[X])
    (boundary : List (BoundaryConstraint F)) (cs : List (MvPolynomial (Nat × Nat) F))
    (boundaryCoeffs transitionCoeffs : List (F × F)) : F[X] :=
  ((boundary.zip boundaryCoeffs).map fun x =>
    (polys.getD x.1.col 0 - C x.1.value) * othersPoly g air.traceLength (x.1.step % air.traceLength)
      * (C x.2.1 * X ^ (air.compositionPolyDegreeBound - air.traceLength) + C x.2.2)).sum
  + ((((cs.zip air.context.transitionDegrees).zip air.context.transitionExemptions).zip
        transitionCoeffs).map fun x =>
    constraintPoly polys air.context.transitionOffsets g x.1.1.1 * exemption g air.traceLength x.1.2
      * (C x.2.1 * X ^ (air.compositionPolyDegreeBound - air.traceLength * (x.1.1.2 - 1)) + C x.2.2)).sum

theorem combinedPoly_degree {air : Air F Ch} {ch : Ch} {cs : List (MvPolynomial (Nat × Nat) F)}
    (hfit : Fits air) (hc : PolynomialConstraints air ch cs) (hn : 2 ≤ air.traceLength) {polys : List F[X]}
    (hp : ∀ p ∈ polys, p.degree < air.traceLength) (g : F) (boundary : List (BoundaryConstraint F))
    (boundaryCoeffs transitionCoeffs : List (F × F)) :
    (combinedPoly air g polys boundary cs boundaryCoeffs transitionCoeffs).degree
      < (3 * air.traceLength : Nat) := by
  unfold combinedPoly
  have hbg := hfit.bound_ge
  have hbl := hfit.bound_le
  refine lt_of_le_of_lt (degree_add_le _ _) (max_lt ?_ ?_)
  · refine list_sum_degree_lt fun p hp' => ?_
    obtain ⟨⟨c, α, β⟩, -, rfl⟩ := List.mem_map.mp hp'
    apply degree_lt_of_natDegree_lt
    simp only
    have h1 : (polys.getD c.col 0 - C c.value).natDegree < air.traceLength := by
      rw [natDegree_sub_C]
      exact getD_natDegree hp (by omega) _
    have h2 := othersPoly_natDegree g (Nat.mod_lt c.step (show air.traceLength > 0 by omega))
    have h3 := adjust_natDegree α β (air.compositionPolyDegreeBound - air.traceLength)
    have h4 := natDegree_mul_le (p := polys.getD c.col 0 - C c.value)
      (q := othersPoly g air.traceLength (c.step % air.traceLength))
    refine lt_of_le_of_lt natDegree_mul_le ?_
    omega
  · refine list_sum_degree_lt fun p hp' => ?_
    obtain ⟨⟨⟨⟨c, d⟩, e⟩, α, β⟩, hx, rfl⟩ := List.mem_map.mp hp'
    obtain ⟨i, h1, h2, h3⟩ := mem_zip3 (List.of_mem_zip hx).1
    have hdm := List.mem_of_getElem? h2
    have hd1 := hfit.degrees_pos d hdm
    have hdb := hfit.bound_degrees d hdm
    have he := hfit.exemptions_lt e (List.mem_of_getElem? h3)
    have hbe := hfit.bound_exemptions i d e h2 h3
    have hcd := constraintPoly_natDegree hp air.context.transitionOffsets g c (hc.degrees i c d h1 h2)
    apply degree_lt_of_natDegree_lt
    simp only
    have h4 := natDegree_mul_le (p := constraintPoly polys air.context.transitionOffsets g c)
      (q := exemption g air.traceLength e)
    rw [exemption_degree g _ e he.le] at h4
    have h5 := adjust_natDegree α β (air.compositionPolyDegreeBound - air.traceLength * (d - 1))
    refine lt_of_le_of_lt natDegree_mul_le ?_
    obtain ⟨d', rfl⟩ : ∃ d', d = d' + 1 := ⟨d - 1, by omega⟩
    generalize air.compositionPolyDegreeBound = bound at *
    generalize air.traceLength = n at *
    obtain ⟨m, rfl⟩ : ∃ m, n = m + 1 := ⟨n - 1, by omega⟩
    simp only [Nat.add_sub_cancel] at *
    have h6 : (d' + 1) * m = d' * m + m := by ring
    have h7 : (m + 1) * d' = d' * m + d' := by ring
    rw [h6] at hcd
    rw [h7] at hdb h5 ⊢
    omega

/-- The combination without denominators at a point outside the trace domain. -/
theorem combinedPoly_eval {air : Air F Ch} {cs : List (MvPolynomial (Nat × Nat) F)}
    {polys : List F[X]} {g : F} (hn : 0 < air.traceLength) (hg : IsPrimitiveRoot g air.traceLength)
    (boundary : List (BoundaryConstraint F)) (boundaryCoeffs transitionCoeffs : List (F × F)) (y : F)
    (hy : y ^ air.traceLength ≠ 1) :
    (combinedPoly air g polys boundary cs boundaryCoeffs transitionCoeffs).eval y
      = (y ^ air.traceLength - 1) * compositionAt air g polys boundary
          (constraintsAt cs polys air.context.transitionOffsets g y) boundaryCoeffs transitionCoeffs y := by
  have hy0 : y ^ air.traceLength - 1 ≠ 0 := sub_ne_zero.mpr hy
  unfold combinedPoly compositionAt compositionOf boundaryAt transitionAt constraintsAt
  rw [eval_add, mul_add]
  congr 1
  · rw [eval_listSum, List.map_map, ← List.sum_map_mul_left]
    congr 1
    refine List.map_congr_left fun x hx => ?_
    have hmod : g ^ x.1.step = g ^ (x.1.step % air.traceLength) := pow_eq_pow_mod _ hg.pow_eq_one
    have h1 := congrArg (eval y) (othersPoly_mul hn hg (Nat.mod_lt x.1.step hn))
    simp only [eval_mul, eval_sub, eval_X, eval_C, eval_pow, eval_one] at h1
    have h2 : y - g ^ x.1.step ≠ 0 := by
      rw [sub_ne_zero]
      rintro rfl
      exact hy (by rw [← pow_mul, mul_comm, pow_mul, hg.pow_eq_one, one_pow])
    rw [← hmod] at h1
    simp only [Function.comp_apply, eval_mul, eval_sub, eval_add, eval_C, eval_pow, eval_X]
    rw [← h1]
    field_simp
  · rw [eval_listSum, List.map_map, ← List.sum_map_mul_left]
    congr 1
    refine List.ext_getElem (by simp) fun j h1 h2 => ?_
    simp only [List.getElem_map, List.getElem_zip, Function.comp_apply, eval_mul, eval_add, eval_C, eval_pow,
      eval_X, constraintPoly_eval]
    field_simp

/-- The combination without denominators at a row of the trace. -/
theorem combinedPoly_eval_row {air : Air F Ch} {cs : List (MvPolynomial (Nat × Nat) F)}
    {polys : List F[X]} {g : F} (boundary : List (BoundaryConstraint F))
    (boundaryCoeffs transitionCoeffs : List (F × F)) {i : Nat} (hi : i < air.traceLength) :
    (combinedPoly air g polys boundary cs boundaryCoeffs transitionCoeffs).eval (g ^ i)
      = combinedAtRow air g polys boundary (constraintsAt cs polys air.context.transitionOffsets g (g ^ i))
          boundaryCoeffs transitionCoeffs i := by
  unfold combinedPoly combinedAtRow constraintsAt
  rw [eval_add]
  congr 1
  · rw [eval_listSum, List.map_map]
    congr 1
    refine List.map_congr_left fun x hx => ?_
    simp only [Function.comp_apply, eval_mul, eval_sub, eval_add, eval_C, eval_pow, eval_X]
    split
    · next h =>
      rw [h, othersPoly, eval_prod]
      simp
    · next h => rw [othersPoly_eval_ne g hi h]; ring
  · rw [eval_listSum, List.map_map]
    congr 1
    refine List.ext_getElem (by simp) fun j h1 h2 => ?_
    simp only [List.getElem_map, List.getElem_zip, Function.comp_apply, eval_mul, eval_add, eval_C, eval_pow,
      eval_X, constraintPoly_eval]

variable [DecidableEq F] {ta : TwoAdic F} {d : Domain F} {a b : Nat} {h g w : F}

/-- An accepting out-of-domain check was not at a point of the trace domain. -/
theorem step2_outside {air : Air F Ch} {proof : StarkProof F} {c : Challenges F Ch} {r : Bool}
    (hs : step2 air proof d c = .ok r) : c.z ^ air.traceLength ≠ 1 := by
  unfold step2 at hs
  simp only [Outcome.bind_eq_ok] at hs
  obtain ⟨_, _, _, _, _, _, _, _, x, hx, _⟩ := hs
  intro hc
  rw [hc, sub_self] at hx
  simp [invOrPanic] at hx

theorem oodAccepts_eq (D : IsDomain ta d a b h g w) {air : Air F Ch} (hfit : Fits air)
    (hn : air.traceLength = 2 ^ a) {ch : Ch} {cs : List (MvPolynomial (Nat × Nat) F)}
    (hc : PolynomialConstraints air ch cs) {polys : List F[X]} (hp : polys.length = air.context.traceColumns)
    {boundary : List (BoundaryConstraint F)} (hb : air.boundaryConstraints ch = .ok boundary)
    (hcols : ∀ c ∈ boundary, c.col < polys.length) {even odd : F[X]} {bC tC : List (F × F)} {z : F}
    (ho : OodAccepts air d polys even odd ch bC tC z) :
    z ^ air.traceLength ≠ 1 ∧ even.eval (z ^ 2) + z * odd.eval (z ^ 2)
      = compositionAt air g polys boundary (constraintsAt cs polys air.context.transitionOffsets g z) bC tC z := by
  obtain ⟨proof, c, rfl, rfl, rfl, rfl, hframe, heven, hodd, hs⟩ := ho
  have hz := step2_outside hs
  refine ⟨hz, ?_⟩
  have ho0 : air.context.transitionOffsets[0]? = some 0 := by
    rw [hfit.offsets, List.getElem?_range hfit.offsets_pos]
  rw [D.tracePrimitiveRoot] at hframe
  have hrow0 : proof.traceOodFrameEvaluations.getRow 0
      = (.ok (polys.map fun p => p.eval (c.z * g ^ 0)) : Outcome Empty _) := by
    rw [hframe]
    exact frame_getRow polys _ g c.z 0 0 ho0
  have hev : air.computeTransition proof.traceOodFrameEvaluations c.rapChallenges
      = .ok (constraintsAt cs polys air.context.transitionOffsets g c.z) := by
    rw [hframe]
    exact constraintsAt_computes hc hp g c.z
  rw [step2_eq D hfit hn (by rw [← hn]; exact hz) hb hrow0 (by simpa using hcols) hev] at hs
  have := of_decide_eq_true (Outcome.ok.inj hs)
  rw [heven, hodd] at this
  rw [this]
  unfold compositionAt
  congr 1
  funext j
  simp only [pow_zero, mul_one, List.getD, List.getElem?_map]
  cases polys[j]? <;> simp

/-- Conversely the check accepts wherever the halves have the value of the composition. -/
theorem oodAccepts_of_eq (D : IsDomain ta d a b h g w) {air : Air F Ch} (hfit : Fits air)
    (hn : air.traceLength = 2 ^ a) {ch : Ch} {cs : List (MvPolynomial (Nat × Nat) F)}
    (hc : PolynomialConstraints air ch cs) {polys : List F[X]} (hp : polys.length = air.context.traceColumns)
    {boundary : List (BoundaryConstraint F)} (hb : air.boundaryConstraints ch = .ok boundary)
    (hcols : ∀ c ∈ boundary, c.col < polys.length) {even odd : F[X]} {bC tC : List (F × F)} {z : F}
    (hz : z ^ air.traceLength ≠ 1) (heq : even.eval (z ^ 2) + z * odd.eval (z ^ 2)
      = compositionAt air g polys boundary (constraintsAt cs polys air.context.transitionOffsets g z) bC tC z) :
    OodAccepts air d polys even odd ch bC tC z := by
  have ho0 : air.context.transitionOffsets[0]? = some 0 := by
    rw [hfit.offsets, List.getElem?_range hfit.offsets_pos]
  refine ⟨{ traceLength := 0
            ldeTraceMerkleRoots := []
            traceOodFrameEvaluations :=
              ⟨(frameRows polys air.context.transitionOffsets g z).flatten, polys.length⟩
            compositionPolyRoot := ⟨List.replicate 32 0, rfl⟩
            compositionPolyEvenOodEvaluation := even.eval (z ^ 2)
            compositionPolyOddOodEvaluation := odd.eval (z ^ 2)
            friLayersMerkleRoots := []
            friLastValue := 0
            queryList := []
            deepPolyOpenings := []
            nonce := 0 },
    ⟨z, bC, tC, [], 0, 0, [], [], ch, 0⟩, rfl, rfl, rfl, rfl, by rw [D.tracePrimitiveRoot], rfl, rfl, ?_⟩
  rw [step2_eq D hfit hn (by rw [← hn]; exact hz) hb (frame_getRow polys _ g z 0 0 ho0) (by simpa using hcols)
    (constraintsAt_computes hc hp g z)]
  refine congrArg Outcome.ok (decide_eq_true ?_)
  simp only
  rw [heq]
  unfold compositionAt
  congr 1
  funext j
  simp only [pow_zero, mul_one, List.getD, List.getElem?_map]
  cases polys[j]? <;> simp

/-- Enough accepted points make the combination vanish in every row. -/
theorem combined_zero (D : IsDomain ta d a b h g w) {air : Air F Ch} (hfit : Fits air) (ha : 1 ≤ a)
    (hn : air.traceLength = 2 ^ a) {ch : Ch} {cs : List (MvPolynomial (Nat × Nat) F)}
    (hc : PolynomialConstraints air ch cs) {polys : List F[X]} (hp : polys.length = air.context.traceColumns)
    (hdeg : ∀ p ∈ polys, p.degree < (2 ^ a : Nat))
    {boundary : List (BoundaryConstraint F)} (hb : air.boundaryConstraints ch = .ok boundary)
    (hcols : ∀ c ∈ boundary, c.col < polys.length) {even odd : F[X]} (heven : even.degree < (2 ^ a : Nat))
    (hodd : odd.degree < (2 ^ a : Nat)) {bC tC : List (F × F)} {S : Finset F} (hS : 3 * 2 ^ a ≤ S.card)
    (ho : ∀ z ∈ S, OodAccepts air d polys even odd ch bC tC z) {i : Nat} (hi : i < 2 ^ a) :
    combinedAtRow air g polys boundary (constraintsAt cs polys air.context.transitionOffsets g (g ^ i)) bC tC i
      = 0 := by
  have hpos : 0 < 2 ^ a := by positivity
  have hn2 : 2 ≤ air.traceLength := by
    rw [hn]
    calc 2 = 2 ^ 1 := rfl
      _ ≤ 2 ^ a := Nat.pow_le_pow_right (by norm_num) ha
  have hg : IsPrimitiveRoot g air.traceLength := by rw [hn]; exact D.g_primitive
  have hH : ((X ^ air.traceLength - 1 : F[X]) * (even.comp (X ^ 2) + X * odd.comp (X ^ 2))).degree
      < ((3 * air.traceLength : Nat) : WithBot Nat) := by
    apply degree_lt_of_natDegree_lt
    have h1 := natDegree_lt_of_degree_lt hpos heven
    have h2 := natDegree_lt_of_degree_lt hpos hodd
    have h3 : (even.comp (X ^ 2)).natDegree = even.natDegree * 2 := by rw [natDegree_comp, natDegree_X_pow]
    have h4 : (odd.comp (X ^ 2)).natDegree = odd.natDegree * 2 := by rw [natDegree_comp, natDegree_X_pow]
    have h5 := natDegree_mul_le (p := (X : F[X])) (q := odd.comp (X ^ 2))
    rw [natDegree_X] at h5
    have h6 := natDegree_add_le (even.comp (X ^ 2)) (X * odd.comp (X ^ 2))
    refine lt_of_le_of_lt natDegree_mul_le ?_
    rw [pow_sub_one_natDegree, hn]
    omega
  have heq := eq_of_degrees_lt_of_eval_finset_eq S
    (lt_of_lt_of_le (combinedPoly_degree hfit hc hn2 (by rw [hn]; exact hdeg) g boundary bC tC)
      (by rw [hn]; exact_mod_cast hS))
    (lt_of_lt_of_le hH (by rw [hn]; exact_mod_cast hS)) (fun z hz => by
      obtain ⟨h1, h2⟩ := oodAccepts_eq D hfit hn hc hp hb hcols (ho z hz)
      rw [combinedPoly_eval (by omega) hg _ _ _ z h1, ← h2]
      simp [eval_comp])
  have h1 := congrArg (eval (g ^ i)) heq
  rw [combinedPoly_eval_row _ _ _ (by rw [hn]; exact hi)] at h1
  rw [h1, eval_mul]
  simp only [eval_sub, eval_pow, eval_X, eval_one]
  rw [← pow_mul, Nat.mul_comm i, pow_mul g, hg.pow_eq_one, one_pow, sub_self, zero_mul]

omit [DecidableEq F] in
theorem zip_set_sum {α : Type} (f : α × F × F → F) (l : List α) (m : List (F × F)) {k : Nat} {x : α}
    (hx : l[k]? = some x) (hk : k < m.length) (u v : F × F) :
    ((l.zip (m.set k u)).map f).sum - ((l.zip (m.set k v)).map f).sum = f (x, u) - f (x, v) := by
  induction l generalizing m k with
  | nil => simp at hx
  | cons y l ih => cases m with
    | nil => simp at hk
    | cons p m => cases k with
      | zero =>
        simp only [List.getElem?_cons_zero, Option.some.injEq] at hx
        subst hx
        simp only [List.set_cons_zero, List.zip_cons_cons, List.map_cons, List.sum_cons]
        ring
      | succ k =>
        simp only [List.getElem?_cons_succ] at hx
        have := ih m hx (by simpa using hk)
        simp only [List.set_cons_succ, List.zip_cons_cons, List.map_cons, List.sum_cons]
        linear_combination this

end Verif
