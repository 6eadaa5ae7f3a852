import Verif.Lemmas.Evaluator
import Verif.Spec.Air
import Mathlib.RingTheory.Polynomial.Basic
import Mathlib.RingTheory.Polynomial.Cyclotomic.Basic

/-!
# Lemmas about the composition polynomial
-/

namespace Verif
open Polynomial Spec
variable {F Ch : Type} [Field F]

/-- The polynomial of the cell `(i, j)` of the frame of trace polynomials. -/
noncomputable def framePoly (polys : List F[X]) (offsets : List Nat) (g : F) (ij : Nat × Nat) : F[X] :=
  match offsets[ij.1]? with
  | some o => (polys.getD ij.2 0).comp (X * C (g ^ o))
  | none => 0

/-- The polynomial of a constraint on the trace polynomials. -/
noncomputable def constraintPoly (polys : List F[X]) (offsets : List Nat) (g : F)
    (c : MvPolynomial (Nat × Nat) F) : F[X] :=
  MvPolynomial.aeval (framePoly polys offsets g) c

theorem framePoly_eval (polys : List F[X]) (offsets : List Nat) (g x : F) (ij : Nat × Nat) :
    (framePoly polys offsets g ij).eval x
      = ((frameRows polys offsets g x).getD ij.1 []).getD ij.2 0 := by
  unfold framePoly frameRows
  simp only [List.getD, List.getElem?_map]
  cases h : offsets[ij.1]? with
  | none => simp
  | some o =>
    simp only [eval_comp, eval_mul, eval_X, eval_C, Option.map_some, Option.getD_some, List.getElem?_map]
    cases polys[ij.2]? with
    | none => simp
    | some p => simp

theorem constraintPoly_eval (polys : List F[X]) (offsets : List Nat) (g x : F)
    (c : MvPolynomial (Nat × Nat) F) :
    (constraintPoly polys offsets g c).eval x
      = MvPolynomial.eval (fun ij => ((frameRows polys offsets g x).getD ij.1 []).getD ij.2 0) c := by
  unfold constraintPoly
  have h := MvPolynomial.map_aeval (R := F) (framePoly polys offsets g) (evalRingHom x) c
  rw [coe_evalRingHom] at h
  rw [h]
  have h2 : (evalRingHom x).comp (algebraMap F F[X]) = RingHom.id F := by
    ext r; simp
  rw [h2]
  simp only [coe_evalRingHom, framePoly_eval]
  rfl

theorem framePoly_natDegree {polys : List F[X]} {n : Nat} (hp : ∀ p ∈ polys, p.degree < n)
    (offsets : List Nat) (g : F) (ij : Nat × Nat) : (framePoly polys offsets g ij).natDegree ≤ n - 1 := by
  unfold framePoly
  cases offsets[ij.1]? with
  | none => simp
  | some o =>
    refine natDegree_comp_le.trans ?_
    have h1 : (X * C (g ^ o)).natDegree ≤ 1 := by
      refine natDegree_mul_le.trans ?_
      simp
    have h2 : (polys.getD ij.2 0).natDegree ≤ n - 1 := by
      unfold List.getD
      cases h : polys[ij.2]? with
      | none => simp
      | some p =>
        have := hp p (List.mem_of_getElem? h)
        simp only [Option.getD_some]
        by_cases h0 : p = 0
        · simp [h0]
        · have := (natDegree_lt_iff_degree_lt h0).mpr this
          omega
    calc _ ≤ (n - 1) * 1 := Nat.mul_le_mul h2 h1
      _ = n - 1 := by simp

theorem constraintPoly_natDegree {polys : List F[X]} {n : Nat} (hp : ∀ p ∈ polys, p.degree < n)
    (offsets : List Nat) (g : F) (c : MvPolynomial (Nat × Nat) F) {d : Nat} (hd : c.totalDegree ≤ d) :
    (constraintPoly polys offsets g c).natDegree ≤ d * (n - 1) := by
  refine (MvPolynomial.aeval_natDegree_le c (n := n - 1) hd _ fun i =>
    framePoly_natDegree hp offsets g i).trans ?_
  exact le_rfl

/-! ## The terms of the composition polynomial -/

/-- The contribution of a boundary constraint. -/
noncomputable def boundaryTerm (polys : List F[X]) (g : F) (n bound : Nat)
    (x : BoundaryConstraint F × F × F) : F[X] :=
  ((polys.getD x.1.col 0 - C x.1.value) /ₘ (X - C (g ^ x.1.step)))
    * (C x.2.1 * X ^ (bound - n) + C x.2.2)

/-- The contribution of a transition constraint. -/
noncomputable def transitionTerm (polys : List F[X]) (offsets : List Nat) (g : F) (n bound : Nat)
    (x : ((MvPolynomial (Nat × Nat) F × Nat) × Nat) × F × F) : F[X] :=
  ((constraintPoly polys offsets g x.1.1.1 * exemption g n x.1.2) /ₘ (X ^ n - 1))
    * (C x.2.1 * X ^ (bound - n * (x.1.1.2 - 1)) + C x.2.2)

theorem adjust_natDegree (α β : F) (k : Nat) : (C α * X ^ k + C β).natDegree ≤ k := by
  refine (natDegree_add_le _ _).trans ?_
  rw [natDegree_C, max_eq_left (Nat.zero_le _)]
  exact natDegree_C_mul_X_pow_le α k

theorem degree_lt_of_natDegree_lt {p : F[X]} {n : Nat} (h : p.natDegree < n) : p.degree < n :=
  lt_of_le_of_lt degree_le_natDegree (by exact_mod_cast h)

theorem natDegree_lt_of_degree_lt {p : F[X]} {n : Nat} (hn : 0 < n) (h : p.degree < n) :
    p.natDegree < n := by
  by_cases h0 : p = 0
  · simpa [h0] using hn
  · exact (natDegree_lt_iff_degree_lt h0).mpr h

theorem getD_natDegree {polys : List F[X]} {n : Nat} (hp : ∀ p ∈ polys, p.degree < n) (hn : 0 < n) (j : Nat) :
    (polys.getD j 0).natDegree < n := by
  unfold List.getD
  cases h : polys[j]? with
  | none => simpa using hn
  | some p => exact natDegree_lt_of_degree_lt hn (hp p (List.mem_of_getElem? h))

theorem boundaryTerm_degree {polys : List F[X]} {n : Nat} (hp : ∀ p ∈ polys, p.degree < n) (hn : 2 ≤ n)
    {bound : Nat} (hb : n ≤ bound) (g : F) (x : BoundaryConstraint F × F × F) :
    (boundaryTerm polys g n bound x).degree < bound := by
  apply degree_lt_of_natDegree_lt
  refine lt_of_le_of_lt natDegree_mul_le ?_
  have h1 : (polys.getD x.1.col 0 - C x.1.value).natDegree < n := by
    rw [natDegree_sub_C]
    exact getD_natDegree hp (by omega) _
  have h2 := natDegree_divByMonic (polys.getD x.1.col 0 - C x.1.value) (monic_X_sub_C (g ^ x.1.step))
  rw [natDegree_X_sub_C] at h2
  have h3 := adjust_natDegree x.2.1 x.2.2 (bound - n)
  omega

theorem boundaryTerm_eval {polys : List F[X]} {g : F} {n bound : Nat} {x : BoundaryConstraint F × F × F}
    (hx : (polys.getD x.1.col 0).eval (g ^ x.1.step) = x.1.value) (y : F) (hy : y ≠ g ^ x.1.step) :
    (boundaryTerm polys g n bound x).eval y
      = ((polys.getD x.1.col 0).eval y - x.1.value) / (y - g ^ x.1.step)
        * (x.2.1 * y ^ (bound - n) + x.2.2) := by
  unfold boundaryTerm
  have hd : (X - C (g ^ x.1.step)) ∣ polys.getD x.1.col 0 - C x.1.value := by
    rw [dvd_iff_isRoot, IsRoot.def, eval_sub, eval_C, hx, sub_self]
  have h1 := mul_divByMonic_eq_iff_isRoot.mpr (dvd_iff_isRoot.mp hd)
  have h2 := congrArg (eval y) h1
  rw [eval_mul, eval_sub, eval_sub, eval_X, eval_C, eval_C] at h2
  rw [eval_mul, ← h2]
  have : y - g ^ x.1.step ≠ 0 := sub_ne_zero.mpr hy
  simp only [eval_add, eval_mul, eval_C, eval_pow, eval_X]
  rw [mul_div_cancel_left₀ _ this]

theorem pow_sub_one_monic {n : Nat} (hn : 0 < n) : (X ^ n - 1 : F[X]).Monic := by
  have := monic_X_pow_sub_C (1 : F) (n := n) (by omega)
  simpa using this

theorem pow_sub_one_natDegree (n : Nat) : (X ^ n - 1 : F[X]).natDegree = n := by
  have := natDegree_X_pow_sub_C (r := (1 : F)) (n := n)
  simpa using this

theorem transitionTerm_degree {polys : List F[X]} {n : Nat} (hp : ∀ p ∈ polys, p.degree < n) (hn : 2 ≤ n)
    {offsets : List Nat} {g : F} {bound B : Nat}
    {x : ((MvPolynomial (Nat × Nat) F × Nat) × Nat) × F × F} (hd : x.1.1.1.totalDegree ≤ x.1.1.2)
    (hd1 : 1 ≤ x.1.1.2) (hdb : n * (x.1.1.2 - 1) ≤ bound) (he : x.1.2 < n)
    (hB : bound + x.1.2 < B + x.1.1.2) :
    (transitionTerm polys offsets g n bound x).degree < B := by
  obtain ⟨⟨⟨c, d⟩, e⟩, α, β⟩ := x
  simp only at *
  unfold transitionTerm
  simp only
  set f := constraintPoly polys offsets g c * exemption g n e with hf
  by_cases h0 : f /ₘ (X ^ n - 1) = 0
  · rw [h0, zero_mul, degree_zero]
    exact WithBot.bot_lt_coe _
  apply degree_lt_of_natDegree_lt
  refine lt_of_le_of_lt natDegree_mul_le ?_
  have hm := pow_sub_one_monic (F := F) (show 0 < n by omega)
  have h1 : f.natDegree ≤ d * (n - 1) + e := by
    refine natDegree_mul_le.trans ?_
    rw [exemption_degree g n e he.le]
    have := constraintPoly_natDegree hp offsets g c hd
    omega
  have h2 := natDegree_divByMonic f hm
  rw [pow_sub_one_natDegree] at h2
  have h3 := adjust_natDegree α β (bound - n * (d - 1))
  have h4 : n ≤ f.natDegree := by
    by_contra hc
    apply h0
    rw [divByMonic_eq_zero_iff hm]
    refine lt_of_le_of_lt degree_le_natDegree ?_
    rw [degree_eq_natDegree hm.ne_zero, pow_sub_one_natDegree]
    exact_mod_cast (by omega : f.natDegree < n)
  obtain ⟨d', rfl⟩ : ∃ d', d = d' + 1 := ⟨d - 1, by omega⟩
  obtain ⟨m, rfl⟩ : ∃ m, n = m + 1 := ⟨n - 1, by omega⟩
  simp only [Nat.add_sub_cancel] at *
  have h5 : (d' + 1) * m = d' * m + m := by ring
  have h6 : (m + 1) * d' = d' * m + d' := by ring
  rw [h5] at h1
  rw [h6] at hdb h3 ⊢
  omega

theorem pow_sub_one_dvd {n : Nat} (hn : 0 < n) {g : F} (hg : IsPrimitiveRoot g n) {f : F[X]}
    (hf : ∀ i < n, f.eval (g ^ i) = 0) : (X ^ n - 1 : F[X]) ∣ f := by
  have hprod : (X ^ n - 1 : F[X]) = ∏ i ∈ Finset.range n, (X - C (g ^ i)) := by
    have : NeZero n := ⟨by omega⟩
    rw [X_pow_sub_one_eq_prod hn hg]
    symm
    refine Finset.prod_bij (fun i _ => g ^ i) ?_ ?_ ?_ ?_
    · intro i hi
      rw [mem_nthRootsFinset hn]
      rw [← pow_mul, mul_comm, pow_mul, hg.pow_eq_one, one_pow]
    · intro i hi j hj h
      exact hg.pow_inj (by simpa using hi) (by simpa using hj) h
    · intro x hx
      rw [mem_nthRootsFinset hn] at hx
      obtain ⟨i, hi, rfl⟩ := hg.eq_pow_of_pow_eq_one hx
      exact ⟨i, by simpa using hi, rfl⟩
    · intro i _; rfl
  rw [hprod]
  apply Finset.prod_dvd_of_coprime
  · intro s hs s' hs' hne
    apply isCoprime_X_sub_C_of_isUnit_sub
    rw [isUnit_iff_ne_zero, sub_ne_zero]
    intro he
    exact hne (hg.pow_inj (by simpa using hs) (by simpa using hs') he)
  · intro i hi
    exact dvd_iff_isRoot.mpr (hf i (by simpa using hi))

theorem transitionTerm_eval {polys : List F[X]} {offsets : List Nat} {g : F} {n bound : Nat} (hn : 0 < n)
    (hg : IsPrimitiveRoot g n) {x : ((MvPolynomial (Nat × Nat) F × Nat) × Nat) × F × F}
    (hx : ∀ i, i + x.1.2 < n → (constraintPoly polys offsets g x.1.1.1).eval (g ^ i) = 0) (y : F)
    (hy : y ^ n ≠ 1) :
    (transitionTerm polys offsets g n bound x).eval y
      = (constraintPoly polys offsets g x.1.1.1).eval y * (exemption g n x.1.2).eval y / (y ^ n - 1)
        * (x.2.1 * y ^ (bound - n * (x.1.1.2 - 1)) + x.2.2) := by
  unfold transitionTerm
  have hm := pow_sub_one_monic (F := F) hn
  have hd : (X ^ n - 1 : F[X]) ∣ constraintPoly polys offsets g x.1.1.1 * exemption g n x.1.2 := by
    refine pow_sub_one_dvd hn hg fun i hi => ?_
    rw [eval_mul]
    by_cases h : i + x.1.2 < n
    · rw [hx i h, zero_mul]
    · rw [(exemption_eval g n x.1.2 (g ^ i)).mpr ⟨i, by omega, hi, rfl⟩, mul_zero]
  have h1 := modByMonic_add_div (constraintPoly polys offsets g x.1.1.1 * exemption g n x.1.2)
    (X ^ n - 1 : F[X])
  rw [(modByMonic_eq_zero_iff_dvd hm).mpr hd, zero_add] at h1
  have h2 := congrArg (eval y) h1
  rw [eval_mul, eval_sub, eval_pow, eval_X, eval_one, eval_mul] at h2
  rw [eval_mul, ← h2]
  have : y ^ n - 1 ≠ 0 := sub_ne_zero.mpr hy
  simp only [eval_add, eval_mul, eval_C, eval_pow, eval_X]
  rw [mul_div_cancel_left₀ _ this]

theorem list_sum_degree_lt {l : List F[X]} {N : Nat} (h : ∀ p ∈ l, p.degree < N) : l.sum.degree < N := by
  rw [← mem_degreeLT]
  exact list_sum_mem fun p hp => mem_degreeLT.mpr (h p hp)

/-- The composition polynomial of trace polynomials. -/
noncomputable def compositionPoly (air : Air F Ch) (g : F) (polys : List F[X])
    (boundary : List (BoundaryConstraint F)) (cs : List (MvPolynomial (Nat × Nat) F))
    (boundaryCoeffs transitionCoeffs : List (F × F)) : F[X] :=
  ((boundary.zip boundaryCoeffs).map
      (boundaryTerm polys g air.traceLength air.compositionPolyDegreeBound)).sum
    + ((((cs.zip air.context.transitionDegrees).zip air.context.transitionExemptions).zip
        transitionCoeffs).map (transitionTerm polys air.context.transitionOffsets g air.traceLength
          air.compositionPolyDegreeBound)).sum

theorem mem_zip3 {α β γ : Type} {l : List α} {m : List β} {k : List γ} {a : α} {b : β} {c : γ}
    (h : ((a, b), c) ∈ (l.zip m).zip k) : ∃ i : Nat, l[i]? = some a ∧ m[i]? = some b ∧ k[i]? = some c := by
  obtain ⟨i, hi⟩ := List.getElem?_of_mem h
  rw [List.getElem?_zip_eq_some, List.getElem?_zip_eq_some] at hi
  exact ⟨i, hi.1.1, hi.1.2, hi.2⟩

theorem compositionPoly_degree {air : Air F Ch} {ch : Ch} {cs : List (MvPolynomial (Nat × Nat) F)}
    (hfit : Fits air) (hc : PolynomialConstraints air ch cs) (hn : 2 ≤ air.traceLength) {polys : List F[X]}
    (hp : ∀ p ∈ polys, p.degree < air.traceLength) (g : F) (boundary : List (BoundaryConstraint F))
    (boundaryCoeffs transitionCoeffs : List (F × F)) {B : Nat} (hB : air.compositionPolyDegreeBound ≤ B)
    (hBe : ∀ (k d e : Nat), air.context.transitionDegrees[k]? = some d →
      air.context.transitionExemptions[k]? = some e → air.compositionPolyDegreeBound + e < B + d) :
    (compositionPoly air g polys boundary cs boundaryCoeffs transitionCoeffs).degree < B := by
  unfold compositionPoly
  refine lt_of_le_of_lt (degree_add_le _ _) (max_lt ?_ ?_)
  · refine list_sum_degree_lt fun p hp' => ?_
    obtain ⟨x, -, rfl⟩ := List.mem_map.mp hp'
    refine lt_of_lt_of_le (boundaryTerm_degree hp hn hfit.bound_ge g x) ?_
    exact_mod_cast hB
  · refine list_sum_degree_lt fun p hp' => ?_
    obtain ⟨⟨⟨⟨c, d⟩, e⟩, αβ⟩, hx, rfl⟩ := List.mem_map.mp hp'
    obtain ⟨i, h1, h2, h3⟩ := mem_zip3 (List.of_mem_zip hx).1
    have hdm := List.mem_of_getElem? h2
    exact transitionTerm_degree hp hn (hc.degrees i c d h1 h2) (hfit.degrees_pos d hdm)
      (hfit.bound_degrees d hdm) (hfit.exemptions_lt e (List.mem_of_getElem? h3)) (hBe i d e h2 h3)

theorem compositionPoly_eval {air : Air F Ch} {cs : List (MvPolynomial (Nat × Nat) F)}
    {polys : List F[X]} {g : F} (hn : 0 < air.traceLength) (hg : IsPrimitiveRoot g air.traceLength)
    {boundary : List (BoundaryConstraint F)}
    (hboundary : ∀ c ∈ boundary, (polys.getD c.col 0).eval (g ^ c.step) = c.value)
    (htransition : ∀ (k : Nat) c e, cs[k]? = some c → air.context.transitionExemptions[k]? = some e →
      ∀ i, i + e < air.traceLength →
        (constraintPoly polys air.context.transitionOffsets g c).eval (g ^ i) = 0)
    (boundaryCoeffs transitionCoeffs : List (F × F)) (y : F) (hy : y ^ air.traceLength ≠ 1) :
    (compositionPoly air g polys boundary cs boundaryCoeffs transitionCoeffs).eval y
      = compositionAt air g polys boundary (constraintsAt cs polys air.context.transitionOffsets g y)
          boundaryCoeffs transitionCoeffs y := by
  unfold compositionPoly compositionAt compositionOf boundaryAt transitionAt constraintsAt
  rw [eval_add]
  congr 1
  · rw [eval_listSum, List.map_map]
    congr 1
    refine List.map_congr_left fun x hx => ?_
    refine boundaryTerm_eval (hboundary x.1 (List.of_mem_zip hx).1) y ?_
    rintro rfl
    exact hy (by rw [← pow_mul, mul_comm, pow_mul, hg.pow_eq_one, one_pow])
  · rw [eval_listSum, List.map_map]
    congr 1
    refine List.ext_getElem (by simp) fun j h1 h2 => ?_
    simp only [List.getElem_map, List.getElem_zip, Function.comp_apply]
    simp only [List.length_map, List.length_zip, lt_inf_iff] at h1
    rw [transitionTerm_eval hn hg (x := (((cs[j], air.context.transitionDegrees[j]),
      air.context.transitionExemptions[j]), transitionCoeffs[j])) (fun i hi => htransition j _ _
        (List.getElem?_eq_getElem _) (List.getElem?_eq_getElem _) i hi) y hy]
    simp only [constraintPoly_eval]

/-- For trace polynomials whose table satisfies the AIR the constraint polynomials vanish on the rows they
are not exempted from. -/
theorem satisfies_polys {air : Air F Ch} {ch : Ch} {cs : List (MvPolynomial (Nat × Nat) F)}
    (hc : PolynomialConstraints air ch cs) {polys : List F[X]} {g : F} {n : Nat}
    (hg : g ^ n = 1) (hp : polys.length = air.context.traceColumns)
    (hsat : Satisfies air ((List.range n).map fun i => polys.map fun p => p.eval (g ^ i)) polys.length ch)
    {boundary : List (BoundaryConstraint F)} (hb : air.boundaryConstraints ch = .ok boundary) :
    (∀ c ∈ boundary, c.col < polys.length ∧ c.step < n ∧
      (polys.getD c.col 0).eval (g ^ c.step) = c.value) ∧
    ∀ (k : Nat) c e, cs[k]? = some c → air.context.transitionExemptions[k]? = some e →
      ∀ i, i + e < n → (constraintPoly polys air.context.transitionOffsets g c).eval (g ^ i) = 0 := by
  constructor
  · intro c hcm
    obtain ⟨cs', h1, h2⟩ := hsat.boundary
    rw [hb] at h1
    cases h1
    obtain ⟨row, h3, h4⟩ := h2 c hcm
    rw [List.getElem?_map, Option.map_eq_some_iff] at h3
    obtain ⟨i, hi, rfl⟩ := h3
    obtain ⟨hlt, rfl⟩ := List.getElem?_eq_some_iff.mp hi
    rw [List.getElem?_map, Option.map_eq_some_iff] at h4
    obtain ⟨p, hpc, hv⟩ := h4
    simp only [List.length_range] at hlt
    refine ⟨(List.getElem?_eq_some_iff.mp hpc).1, hlt, ?_⟩
    rw [List.getElem_range] at hv
    rw [List.getD, hpc, Option.getD_some, hv]
  · intro k c e hk he i hi
    obtain ⟨evals, h1, h2⟩ := hsat.transition i (by simp; omega)
    have hrows : frameAt ((List.range n).map fun i => polys.map fun p => p.eval (g ^ i)) polys.length
        air.context.transitionOffsets i
        = ⟨(frameRows polys air.context.transitionOffsets g (g ^ i)).flatten, air.context.traceColumns⟩ := by
      unfold frameAt frameRows
      rw [hp]
      congr 2
      refine List.map_congr_left fun o _ => ?_
      simp only [List.length_map, List.length_range, List.getD]
      rw [List.getElem?_map, List.getElem?_range (Nat.mod_lt _ (by omega))]
      simp only [Option.map_some, Option.getD_some]
      rw [← pow_add, ← pow_eq_pow_mod _ hg]
    rw [hrows, hc.computes _ (by simp [frameRows]) (by
      intro r hr
      obtain ⟨o, -, rfl⟩ := List.mem_map.mp hr
      simpa using hp)] at h1
    have h3 := h2 k e he (by simpa using hi)
    rw [← Outcome.ok.inj h1, List.getElem?_map, hk, Option.map_some] at h3
    rw [constraintPoly_eval]
    exact Option.some.inj h3

end Verif
