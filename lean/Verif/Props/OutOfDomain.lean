import Verif.Lemmas.OutOfDomain
import Verif.Props.Stark

/-!
# C40: soundness of the out-of-domain check
-/

namespace Verif.Props
open Polynomial Verif.Spec
variable {F T Ch : Type} [Field F] [DecidableEq F]

/-- **C40**: for fixed trace polynomials and composition halves of degree below the trace length `n`, and fixed
challenges, if the check of the verifier accepts at `3n` points or more then the combination of the constraints
vanishes in every row of the trace. -/
theorem C40_combination_vanishes {ta : TwoAdic F} {air : Air F Ch} {a b : Nat} (S : Setting air a b) {d : Domain F}
    (hd : Domain.new ta air = .ok d) {ch : Ch} {cs : List (MvPolynomial (Nat × Nat) F)}
    (hc : PolynomialConstraints air ch cs) {polys : List F[X]} (hp : polys.length = air.context.traceColumns)
    (hdeg : ∀ p ∈ polys, p.degree < (2 ^ a : Nat))
    {boundary : List (BoundaryConstraint F)} (hb : air.boundaryConstraints ch = .ok boundary)
    (hcols : ∀ c ∈ boundary, c.col < polys.length) {even odd : F[X]} (heven : even.degree < (2 ^ a : Nat))
    (hodd : odd.degree < (2 ^ a : Nat)) {boundaryCoeffs transitionCoeffs : List (F × F)} {points : Finset F}
    (hpoints : 3 * 2 ^ a ≤ points.card)
    (hacc : ∀ z ∈ points, OodAccepts air d polys even odd ch boundaryCoeffs transitionCoeffs z) :
    ∀ i < 2 ^ a, combinedAtRow air d.tracePrimitiveRoot polys boundary
      (constraintsAt cs polys air.context.transitionOffsets d.tracePrimitiveRoot (d.tracePrimitiveRoot ^ i))
      boundaryCoeffs transitionCoeffs i = 0 := by
  obtain ⟨g, w, D⟩ := domain_new S.rows S.length S.blowup hd
  rw [D.tracePrimitiveRoot]
  exact fun i hi => combined_zero D S.fits S.rows S.length hc hp hdeg hb hcols heven hodd hpoints hacc hi

/-- For a trace that does not satisfy the AIR there is a constraint such that, whatever the other coefficients are, at
most one value of its last coefficient makes the combination vanish in every row. -/
theorem unsatisfying_unique {ta : TwoAdic F} {air : Air F Ch} {a b : Nat} (S : Setting air a b) {d : Domain F}
    {h g w : F} (D : IsDomain ta d a b h g w) {ch : Ch} {cs : List (MvPolynomial (Nat × Nat) F)}
    (hc : PolynomialConstraints air ch cs) (hcs : cs.length = air.context.numTransitionConstraints)
    {polys : List F[X]} (hp : polys.length = air.context.traceColumns)
    {boundary : List (BoundaryConstraint F)} (hb : air.boundaryConstraints ch = .ok boundary)
    (hcols : ∀ c ∈ boundary, c.col < polys.length ∧ c.step < 2 ^ a)
    (hsat : ¬ Satisfies air (d.traceRootsOfUnity.map fun x => polys.map fun p => p.eval x) polys.length ch)
    {P : List (F × F) → List (F × F) → Prop}
    (hzero : ∀ bC tC, P bC tC → ∀ i < 2 ^ a, combinedAtRow air g polys boundary
      (constraintsAt cs polys air.context.transitionOffsets g (g ^ i)) bC tC i = 0) :
    (∃ k < boundary.length, ∀ boundaryCoeffs transitionCoeffs : List (F × F), boundaryCoeffs.length = boundary.length →
      ∀ α β β', P (boundaryCoeffs.set k (α, β)) transitionCoeffs →
        P (boundaryCoeffs.set k (α, β')) transitionCoeffs → β = β') ∨
    (∃ k < cs.length, ∀ boundaryCoeffs transitionCoeffs : List (F × F), transitionCoeffs.length = cs.length →
      ∀ α β β', P boundaryCoeffs (transitionCoeffs.set k (α, β)) →
        P boundaryCoeffs (transitionCoeffs.set k (α, β')) → β = β') := by
  have hn := S.length
  have hpos : 0 < 2 ^ a := by positivity
  by_cases hbd : ∀ c ∈ boundary, (polys.getD c.col 0).eval (g ^ c.step) = c.value
  · right
    have htr : ¬ ∀ (k : Nat) c e, cs[k]? = some c → air.context.transitionExemptions[k]? = some e →
        ∀ i, i + e < 2 ^ a → (constraintPoly polys air.context.transitionOffsets g c).eval (g ^ i) = 0 := by
      intro htr
      refine hsat ⟨⟨boundary, hb, fun c hcm => ?_⟩, fun i hi => ?_⟩
      · obtain ⟨h1, h2⟩ := hcols c hcm
        refine ⟨polys.map fun p => p.eval (g ^ c.step), ?_, ?_⟩
        · rw [D.traceRoots, List.map_map, List.getElem?_map, List.getElem?_range h2]; rfl
        · have := hbd c hcm
          rw [List.getD_eq_getElem?_getD, List.getElem?_eq_getElem h1] at this
          rw [List.getElem?_map, List.getElem?_eq_getElem h1, ← this]; rfl
      · rw [D.traceRoots, List.map_map, List.length_map, List.length_range] at hi
        refine ⟨constraintsAt cs polys air.context.transitionOffsets g (g ^ i), ?_, fun k x hx hix => ?_⟩
        · rw [← constraintsAt_computes hc hp g (g ^ i)]
          congr 1
          unfold frameAt frameRows
          congr 2
          refine List.map_congr_left fun o _ => ?_
          rw [D.traceRoots, List.map_map, List.length_map, List.length_range, List.getD_eq_getElem?_getD,
            List.getElem?_map, List.getElem?_range (Nat.mod_lt _ hpos)]
          simp only [Option.map_some, Option.getD_some, Function.comp_apply]
          rw [← pow_add, ← pow_eq_pow_mod _ D.g_primitive.pow_eq_one]
        · rw [D.traceRoots, List.map_map, List.length_map, List.length_range] at hix
          have hk : k < cs.length := by
            rw [hcs, ← S.fits.exemptions_len]
            exact (List.getElem?_eq_some_iff.mp hx).1
          have := htr k cs[k] x (List.getElem?_eq_getElem hk) hx i hix
          rw [constraintPoly_eval] at this
          unfold constraintsAt
          rw [List.getElem?_map, List.getElem?_eq_getElem hk, Option.map_some, this]
    push Not at htr
    obtain ⟨k, c, e, hk, he, i, hi, hne⟩ := htr
    have hklt := (List.getElem?_eq_some_iff.mp hk).1
    refine ⟨k, hklt, fun bC tC hlen α β β' h1 h2 => ?_⟩
    have h1 := hzero _ _ h1 i (by omega)
    have h2 := hzero _ _ h2 i (by omega)
    obtain ⟨dg, hdg⟩ : ∃ dg, air.context.transitionDegrees[k]? = some dg :=
      ⟨_, List.getElem?_eq_getElem (by rw [S.fits.degrees_len, ← hcs]; exact hklt)⟩
    unfold combinedAtRow at h1 h2
    have hset := zip_set_sum (fun x : ((F × Nat) × Nat) × F × F =>
      x.1.1.1 * (exemption g air.traceLength x.1.2).eval (g ^ i)
        * (x.2.1 * (g ^ i) ^ (air.compositionPolyDegreeBound - air.traceLength * (x.1.1.2 - 1)) + x.2.2))
      (((constraintsAt cs polys air.context.transitionOffsets g (g ^ i)).zip air.context.transitionDegrees).zip
        air.context.transitionExemptions) tC (k := k)
      (x := (((constraintPoly polys air.context.transitionOffsets g c).eval (g ^ i), dg), e)) (by
        rw [List.getElem?_zip_eq_some, List.getElem?_zip_eq_some]
        refine ⟨⟨?_, hdg⟩, he⟩
        unfold constraintsAt
        rw [List.getElem?_map, hk, Option.map_some, constraintPoly_eval]) (by omega) (α, β) (α, β')
    simp only at hset
    have hex : (exemption g air.traceLength e).eval (g ^ i) ≠ 0 := by
      intro h0
      obtain ⟨j, hj1, hj2, hj3⟩ := (exemption_eval _ _ _ _).mp h0
      rw [hn] at hj1 hj2
      have := D.g_primitive.pow_inj (by omega) hj2 hj3
      omega
    have hmul : (constraintPoly polys air.context.transitionOffsets g c).eval (g ^ i)
        * (exemption g air.traceLength e).eval (g ^ i) * (β - β') = 0 := by
      linear_combination -hset + h1 - h2
    rcases mul_eq_zero.mp hmul with h | h
    · exact absurd h (mul_ne_zero hne hex)
    · exact sub_eq_zero.mp h
  · left
    push Not at hbd
    obtain ⟨c, hcm, hne⟩ := hbd
    obtain ⟨k, hk⟩ := List.getElem?_of_mem hcm
    have hklt := (List.getElem?_eq_some_iff.mp hk).1
    have hstep := (hcols c hcm).2
    refine ⟨k, hklt, fun bC tC hlen α β β' h1 h2 => ?_⟩
    have h1 := hzero _ _ h1 c.step hstep
    have h2 := hzero _ _ h2 c.step hstep
    unfold combinedAtRow at h1 h2
    have hset := zip_set_sum (fun x : BoundaryConstraint F × F × F =>
      if x.1.step % air.traceLength = c.step then
        ((polys.getD x.1.col 0).eval (g ^ c.step) - x.1.value)
          * (∏ j ∈ (Finset.range air.traceLength).erase c.step, (g ^ c.step - g ^ j))
          * (x.2.1 * (g ^ c.step) ^ (air.compositionPolyDegreeBound - air.traceLength) + x.2.2)
      else 0) boundary bC hk (by omega) (α, β) (α, β')
    have hmod : c.step % air.traceLength = c.step := by rw [hn]; exact Nat.mod_eq_of_lt hstep
    simp only [if_pos hmod] at hset
    have hprod : (∏ j ∈ (Finset.range air.traceLength).erase c.step, (g ^ c.step - g ^ j)) ≠ 0 := by
      refine Finset.prod_ne_zero_iff.mpr fun j hj => ?_
      obtain ⟨hj1, hj2⟩ := Finset.mem_erase.mp hj
      rw [sub_ne_zero]
      intro heq
      rw [hn, Finset.mem_range] at hj2
      exact hj1 (D.g_primitive.pow_inj hstep hj2 heq).symm
    have hmul : ((polys.getD c.col 0).eval (g ^ c.step) - c.value)
        * (∏ j ∈ (Finset.range air.traceLength).erase c.step, (g ^ c.step - g ^ j)) * (β - β') = 0 := by
      linear_combination -hset + h1 - h2
    rcases mul_eq_zero.mp hmul with h | h
    · exact absurd h (mul_ne_zero (sub_ne_zero.mpr hne) hprod)
    · exact sub_eq_zero.mp h

/-- **C40**: the check accepts an unsatisfying trace at few points except for few coefficients. When a trace of
polynomials does not satisfy the AIR there is a boundary constraint or a transition constraint such that, whatever
the other coefficients are, at most one value of its last coefficient lets the check accept at `3n` points or
more. -/
theorem C40_unsatisfying {ta : TwoAdic F} {air : Air F Ch} {a b : Nat} (S : Setting air a b) {d : Domain F}
    (hd : Domain.new ta air = .ok d) {ch : Ch} {cs : List (MvPolynomial (Nat × Nat) F)}
    (hc : PolynomialConstraints air ch cs) (hcs : cs.length = air.context.numTransitionConstraints)
    {polys : List F[X]} (hp : polys.length = air.context.traceColumns)
    (hdeg : ∀ p ∈ polys, p.degree < (2 ^ a : Nat))
    {boundary : List (BoundaryConstraint F)} (hb : air.boundaryConstraints ch = .ok boundary)
    (hcols : ∀ c ∈ boundary, c.col < polys.length ∧ c.step < 2 ^ a)
    (hsat : ¬ Satisfies air (d.traceRootsOfUnity.map fun x => polys.map fun p => p.eval x) polys.length ch) :
    (∃ k < boundary.length, ∀ boundaryCoeffs transitionCoeffs : List (F × F), boundaryCoeffs.length = boundary.length →
      ∀ α β β', OodAcceptsMany air d polys ch (boundaryCoeffs.set k (α, β)) transitionCoeffs →
        OodAcceptsMany air d polys ch (boundaryCoeffs.set k (α, β')) transitionCoeffs → β = β') ∨
    (∃ k < cs.length, ∀ boundaryCoeffs transitionCoeffs : List (F × F), transitionCoeffs.length = cs.length →
      ∀ α β β', OodAcceptsMany air d polys ch boundaryCoeffs (transitionCoeffs.set k (α, β)) →
        OodAcceptsMany air d polys ch boundaryCoeffs (transitionCoeffs.set k (α, β')) → β = β') := by
  obtain ⟨g, w, D⟩ := domain_new S.rows S.length S.blowup hd
  have hn := S.length
  have hzero : ∀ bC tC, OodAcceptsMany air d polys ch bC tC → ∀ i < 2 ^ a, combinedAtRow air g polys boundary
      (constraintsAt cs polys air.context.transitionOffsets g (g ^ i)) bC tC i = 0 := by
    rintro bC tC ⟨even, odd, pts, h1, h2, h3, h4⟩ i hi
    rw [hn] at h1 h2 h3
    exact combined_zero D S.fits S.rows hn hc hp hdeg hb (fun c h => (hcols c h).1) h1 h2 h3 h4 hi
  exact unsatisfying_unique S D hc hcs hp hb hcols hsat hzero

/-- The other direction: for a satisfying trace there are composition halves for which the check accepts at every
point outside the trace domain. -/
theorem C40_satisfying {ta : TwoAdic F} {air : Air F Ch} {a b : Nat} (S : Setting air a b) {d : Domain F}
    (hd : Domain.new ta air = .ok d) {ch : Ch} {cs : List (MvPolynomial (Nat × Nat) F)}
    (hc : PolynomialConstraints air ch cs) {polys : List F[X]} (hp : polys.length = air.context.traceColumns)
    (hdeg : ∀ p ∈ polys, p.degree < (2 ^ a : Nat))
    (hsat : Satisfies air (d.traceRootsOfUnity.map fun x => polys.map fun p => p.eval x) polys.length ch)
    (boundaryCoeffs transitionCoeffs : List (F × F)) :
    ∃ even odd : F[X], even.degree < (2 ^ a : Nat) ∧ odd.degree < (2 ^ a : Nat) ∧ ∀ z ∉ d.traceRootsOfUnity,
      OodAccepts air d polys even odd ch boundaryCoeffs transitionCoeffs z := by
  obtain ⟨g, w, D⟩ := domain_new S.rows S.length S.blowup hd
  obtain ⟨boundary, hb, -⟩ := hsat.boundary
  rw [D.traceRoots, List.map_map] at hsat
  have hcols := fun c hcm => ((satisfies_polys hc D.g_primitive.pow_eq_one hp hsat hb).1 c hcm).1
  obtain ⟨H, hH, heq⟩ := C38_polynomial_exists S hc D.g_primitive hp hdeg hsat hb transitionCoeffs boundaryCoeffs
  refine ⟨(evenOdd H).1, (evenOdd H).2, even_degree H _ hH, odd_degree H _ hH, fun z hz => ?_⟩
  have hz := (D.notMem_trace_iff _).mp hz
  refine oodAccepts_of_eq D S.fits S.length hc hp hb hcols (by rw [S.length]; exact hz) ?_
  rw [← evenOdd_eval, heq z hz]

/-- The hypotheses of the theorems above are met by four rows of the Fibonacci sequence over the field of 17
elements: the check accepts at thirteen points, more than three times the number of rows. -/
example : ∃ (d : Domain (ZMod 17)) (polys : List (ZMod 17)[X]) (even odd : (ZMod 17)[X]),
    Domain.new Examples.env17.ta air17 = .ok d ∧ polys.length = 2 ∧
    (d.traceRootsOfUnity.map fun x => polys.map fun p => p.eval x) = rows17 ∧
    (∀ p ∈ polys, p.degree < (2 ^ 2 : Nat)) ∧ even.degree < (2 ^ 2 : Nat) ∧ odd.degree < (2 ^ 2 : Nat) ∧
    ∃ S : Finset (ZMod 17), 3 * 2 ^ 2 ≤ S.card ∧
      ∀ z ∈ S, OodAccepts air17 d polys even odd () [(1, 2), (3, 4)] [(5, 6), (7, 8)] z := by
  obtain ⟨d, hd⟩ := domain_exists (ta := Examples.env17.ta) setting17.rows setting17.length setting17.blowup
    (by norm_num) (by decide)
  obtain ⟨g, w, D⟩ := domain_new setting17.rows setting17.length setting17.blowup hd
  have hinj : Set.InjOn (fun i => g ^ i) (Finset.range 4 : Set Nat) := by
    intro i hi j hj h
    exact D.g_primitive.pow_inj (by simpa using hi) (by simpa using hj) h
  let poly (j : Nat) : (ZMod 17)[X] :=
    Lagrange.interpolate (Finset.range 4) (fun i => g ^ i) fun i => cell rows17 i j
  have hrows : (d.traceRootsOfUnity.map fun x => [poly 0, poly 1].map fun p => p.eval x) = rows17 := by
    rw [D.traceRoots, List.map_map]
    have : ∀ i < 4, ((fun x => [poly 0, poly 1].map fun p => p.eval x) ∘ fun i => g ^ i) i = rows17.getD i [] := by
      intro i hi
      simp only [Function.comp_apply, List.map_cons, List.map_nil, poly]
      rw [Lagrange.eval_interpolate_at_node _ hinj (Finset.mem_range.mpr hi),
        Lagrange.eval_interpolate_at_node _ hinj (Finset.mem_range.mpr hi)]
      interval_cases i <;> rfl
    rw [List.map_congr_left (g := fun i => rows17.getD i []) fun i hi => this i (by simpa using hi)]
    rfl
  have hdeg : ∀ p ∈ [poly 0, poly 1], p.degree < (2 ^ 2 : Nat) := by
    intro p hp
    simp only [List.mem_cons, List.not_mem_nil, or_false] at hp
    rcases hp with rfl | rfl <;> exact Lagrange.degree_interpolate_lt _ hinj
  obtain ⟨even, odd, h1, h2, h3⟩ := C40_satisfying setting17 hd (ExampleAirs.fibonacci2_polynomial _ _ _ air17_eq ())
    (polys := [poly 0, poly 1]) rfl hdeg (by rw [hrows]; exact rows17_satisfy) [(1, 2), (3, 4)] [(5, 6), (7, 8)]
  refine ⟨d, [poly 0, poly 1], even, odd, hd, rfl, hrows, hdeg, h1, h2,
    Finset.univ.filter fun z => z ^ 4 ≠ 1, by decide +kernel, fun z hz => h3 z ((D.notMem_trace_iff _).mpr ?_)⟩
  exact (Finset.mem_filter.mp hz).2

/-- Rows that do not satisfy the AIR: the last hypothesis of `C40_unsatisfying` is met. -/
example : ¬ Satisfies air17 [[1, 1], [2, 3], [5, 8], [13, 5]] 2 () := fun h => by
  have := (C54_fibonacci_two_columns (n := 2 ^ 2) air17_eq rfl (by norm_num) (by decide)).mp h
  revert this
  decide +kernel

end Verif.Props
