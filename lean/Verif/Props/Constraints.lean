import Verif.Lemmas.Evaluator
import Verif.Examples.SmallEnv
import Mathlib.Data.ZMod.Basic

/-!
# Boundary polynomials and transition exemptions (C36, C37)
-/

namespace Verif.Props
open Verif Polynomial Spec
variable {F Ch : Type} [Field F] [DecidableEq F]

/-! ## Boundary polynomials -/

theorem zerofier_eq_prod (cs : List (BoundaryConstraint F)) (g : F) (col : Nat) :
    Boundary.computeZerofier cs g col
      = ((Boundary.steps cs col).map fun s => X - C (g ^ s)).prod := by
  unfold Boundary.computeZerofier
  have h : ∀ s : Nat, polyNew [-(g ^ s), 1] = X - C (g ^ s) := by
    intro s
    unfold polyNew
    simp [Finset.sum_range_succ, monomial_zero_left, ← X_pow_eq_monomial]
    ring
  simp only [h]
  rw [foldl_mul_prod, one_mul]

/-- **C36**, zerofier: the zerofier of a column vanishes exactly at the points of the steps at which
the column is constrained. -/
theorem C36_zerofier_roots (cs : List (BoundaryConstraint F)) (g : F) (col : Nat) (x : F) :
    (Boundary.computeZerofier cs g col).eval x = 0 ↔ ∃ c ∈ cs, c.col = col ∧ x = g ^ c.step := by
  rw [zerofier_eq_prod, eval_list_prod, List.prod_eq_zero_iff]
  simp only [Boundary.steps, List.map_map, List.mem_map, List.mem_filter, Function.comp_apply,
    eval_sub, eval_X, eval_C, decide_eq_true_eq, sub_eq_zero]
  constructor
  · rintro ⟨c, ⟨h1, h2⟩, h3⟩; exact ⟨c, h1, h2, h3⟩
  · rintro ⟨c, h1, h2, h3⟩; exact ⟨c, ⟨h1, h2⟩, h3⟩

/-- **C36**, interpolated values: the points and the values listed for a column are the points of its
constrained steps with the constrained values, in the same order. -/
theorem C36_points_and_values (cs : List (BoundaryConstraint F)) (g : F) (col : Nat) :
    ∃ roots vals, Boundary.generateRootsOfUnity cs g [col] = [roots] ∧
      Boundary.values cs [col] = [vals] ∧
      ∀ r v, (r, v) ∈ roots.zip vals ↔ ∃ c ∈ cs, c.col = col ∧ r = g ^ c.step ∧ v = c.value := by
  refine ⟨_, _, rfl, rfl, fun r v => ?_⟩
  unfold Boundary.steps
  beta_reduce
  rw [List.map_map, List.zip_map', List.mem_map]
  simp only [List.mem_filter, decide_eq_true_eq, Function.comp_apply, Prod.mk.injEq]
  constructor
  · rintro ⟨c, ⟨h1, h2⟩, h3, h4⟩; exact ⟨c, h1, h2, h3.symm, h4.symm⟩
  · rintro ⟨c, h1, h2, h3, h4⟩; exact ⟨c, ⟨h1, h2⟩, h3.symm, h4.symm⟩

/-- **C36**, divisibility: let the steps constrained in a column be different steps of a trace of `n`
rows and `q` a polynomial interpolating the values listed for the column. A column polynomial minus `q` is
divisible by the zerofier exactly when the column has the constrained values. -/
theorem C36_divisible_iff (cs : List (BoundaryConstraint F)) (g : F) (n col : Nat)
    (hg : IsPrimitiveRoot g n) (hlt : ∀ c ∈ cs, c.col = col → c.step < n)
    (hne : (Boundary.steps cs col).Nodup) (p q : F[X])
    (hq : ∀ roots ∈ Boundary.generateRootsOfUnity cs g [col], ∀ vals ∈ Boundary.values cs [col],
      ∀ rv ∈ roots.zip vals, q.eval rv.1 = rv.2) :
    Boundary.computeZerofier cs g col ∣ p - q ↔
      ∀ c ∈ cs, c.col = col → p.eval (g ^ c.step) = c.value := by
  have hqv : ∀ c ∈ cs, c.col = col → q.eval (g ^ c.step) = c.value := by
    intro c hc hcol
    obtain ⟨roots, vals, h1, h2, h3⟩ := C36_points_and_values cs g col
    exact hq roots (by rw [h1]; simp) vals (by rw [h2]; simp) (g ^ c.step, c.value)
      ((h3 _ _).mpr ⟨c, hc, hcol, rfl, rfl⟩)
  constructor
  · rintro ⟨k, hk⟩ c hc hcol
    have h0 := (C36_zerofier_roots cs g col (g ^ c.step)).mpr ⟨c, hc, hcol, rfl⟩
    have := congrArg (eval (g ^ c.step)) hk
    rw [eval_mul, h0, zero_mul, eval_sub, hqv c hc hcol, sub_eq_zero] at this
    exact this
  · intro h
    rw [zerofier_eq_prod]
    set ss := Boundary.steps cs col with hss
    have hmem : ∀ s ∈ ss, s < n ∧ (p - q).eval (g ^ s) = 0 := by
      intro s hs
      rw [hss] at hs
      unfold Boundary.steps at hs
      simp only [List.mem_map, List.mem_filter, decide_eq_true_eq] at hs
      obtain ⟨c, ⟨hc, hcol⟩, rfl⟩ := hs
      exact ⟨hlt c hc hcol, by rw [eval_sub, h c hc hcol, hqv c hc hcol, sub_self]⟩
    clear_value ss
    have hprod : (ss.map fun s => X - C (g ^ s)).prod = ∏ s ∈ ss.toFinset, (X - C (g ^ s)) := by
      rw [List.prod_toFinset _ hne]
    rw [hprod]
    apply Finset.prod_dvd_of_coprime
    · intro s hs s' hs' hne'
      apply isCoprime_X_sub_C_of_isUnit_sub
      rw [isUnit_iff_ne_zero, sub_ne_zero]
      intro he
      exact hne' (hg.pow_inj (hmem s (by simpa using hs)).1 (hmem s' (by simpa using hs')).1 he)
    · intro s hs
      exact dvd_iff_isRoot.mpr (hmem s (by simpa using hs)).2

/-- Two constraints on column 0 and one on column 1 over the field with 17 elements; `4` is a
primitive fourth root of unity. `X^2 - 4 X + 4` has the values required of column 0, which `X`
interpolates. -/
example : Boundary.computeZerofier
    ([⟨0, 0, 1⟩, ⟨1, 2, 5⟩, ⟨0, 1, 4⟩] : List (BoundaryConstraint (ZMod 17))) 4 0
      ∣ (X ^ 2 - C 4 * X + C 4) - X := by
  refine (C36_divisible_iff _ 4 4 0 (primitive_of_half (A := 1) (by decide) (by decide)) (by decide)
    (by decide) _ X ?_).mpr ?_
  · simp only [eval_X]; decide +kernel
  · simp only [eval_add, eval_sub, eval_mul, eval_pow, eval_X, eval_C]; decide +kernel

theorem unique_append {α : Type} [DecidableEq α] (l : List α) (x : α) :
    unique (l ++ [x]) = if x ∈ unique l then unique l else unique l ++ [x] := by
  unfold unique
  rw [List.foldl_append]
  rfl

/-- Each element is listed once, in the order of the first occurrences. -/
theorem unique_spec {α : Type} [DecidableEq α] (l : List α) :
    (∀ x, x ∈ unique l ↔ x ∈ l) ∧ (unique l).Pairwise fun x y => l.idxOf x < l.idxOf y := by
  induction l using List.reverseRecOn with
  | nil => exact ⟨fun x => Iff.rfl, List.Pairwise.nil⟩
  | append_singleton l x ih =>
    obtain ⟨h1, h2⟩ := ih
    have hold : (unique l).Pairwise fun a b => (l ++ [x]).idxOf a < (l ++ [x]).idxOf b :=
      h2.imp_of_mem fun {a b} ha hb h => by
        rw [List.idxOf_append_of_mem ((h1 a).mp ha), List.idxOf_append_of_mem ((h1 b).mp hb)]
        exact h
    rw [unique_append]
    split
    · rename_i hx
      refine ⟨fun y => ?_, hold⟩
      rw [h1, List.mem_append, List.mem_singleton]
      exact ⟨.inl, fun h => h.elim id fun h => h ▸ (h1 x).mp hx⟩
    · rename_i hx
      refine ⟨fun y => by rw [List.mem_append, List.mem_append, h1], List.pairwise_append.mpr ⟨hold, by simp, ?_⟩⟩
      intro a ha b hb
      obtain rfl := List.mem_singleton.mp hb
      rw [List.idxOf_append_of_mem ((h1 a).mp ha), List.idxOf_append_of_notMem fun h => hx ((h1 b).mpr h)]
      have := List.idxOf_lt_length_of_mem ((h1 a).mp ha)
      omega

/-- **C36**, constrained steps and columns: the steps and the columns listed for a set of boundary constraints are
those of its constraints, each listed once, in the order in which they first occur. -/
theorem C36_listed_once (cs : List (BoundaryConstraint F)) :
    ((∀ s, s ∈ Boundary.stepsForBoundary cs ↔ ∃ c ∈ cs, c.step = s) ∧
      (Boundary.stepsForBoundary cs).Pairwise fun s s' => (cs.map (·.step)).idxOf s < (cs.map (·.step)).idxOf s') ∧
    (∀ s, s ∈ Boundary.colsForBoundary cs ↔ ∃ c ∈ cs, c.col = s) ∧
      (Boundary.colsForBoundary cs).Pairwise fun s s' => (cs.map (·.col)).idxOf s < (cs.map (·.col)).idxOf s' := by
  unfold Boundary.stepsForBoundary Boundary.colsForBoundary Boundary.uniqueBy
  refine ⟨⟨fun s => ?_, (unique_spec _).2⟩, fun s => ?_, (unique_spec _).2⟩
  all_goals rw [(unique_spec _).1, List.mem_map]

/-- Three constraints on two steps and two columns. -/
example : Boundary.stepsForBoundary [⟨1, 3, (5 : ZMod 17)⟩, ⟨0, 0, 1⟩, ⟨1, 0, 2⟩] = [3, 0] ∧
    Boundary.colsForBoundary [⟨1, 3, (5 : ZMod 17)⟩, ⟨0, 0, 1⟩, ⟨1, 0, 2⟩] = [1, 0] := by decide

/-- The steps of a column have to be different: with a constraint listed twice the zerofier has a double
root, and a column with the required value is not divisible by it. -/
theorem C36_repeated_constraint : ∃ (cs : List (BoundaryConstraint (ZMod 17))) (g : ZMod 17) (p q : (ZMod 17)[X]),
    IsPrimitiveRoot g (2 ^ 1) ∧ (∀ c ∈ cs, c.col = 0 ∧ c.step < 2 ^ 1) ∧
    (∀ c ∈ cs, q.eval (g ^ c.step) = c.value) ∧ (∀ c ∈ cs, p.eval (g ^ c.step) = c.value) ∧
    ¬ Boundary.computeZerofier cs g 0 ∣ p - q := by
  refine ⟨[⟨0, 0, 1⟩, ⟨0, 0, 1⟩], -1, X, 1, primitive_of_half (A := 0) (by decide) (by decide),
    by decide, by simp, by simp, ?_⟩
  intro h
  have := natDegree_le_of_dvd h (by
    intro h0
    have := congrArg (eval 0) h0
    simp at this)
  rw [zerofier_eq_prod] at this
  have h1 : (X - 1 : (ZMod 17)[X]).natDegree = 1 := natDegree_X_sub_C (1 : ZMod 17)
  simp only [Boundary.steps, List.map_map] at this
  simp [h1, natDegree_mul (X_sub_C_ne_zero (1 : ZMod 17)) (X_sub_C_ne_zero 1)] at this
  rw [natDegree_mul (fun h => by rw [h] at h1; simp at h1) (fun h => by rw [h] at h1; simp at h1), h1]
    at this
  omega

/-! ## Transition exemptions -/

/-- **C37**: let the declared exemptions be smaller than the trace length and the declared number of
different exemptions be right. The factors the prover uses at the points of the extended domain and
the polynomials the verifier evaluates at the out-of-domain point are, for every exemption `e` in the
context, values of the same polynomial, which vanishes exactly on the last `e` points of the trace
domain. -/
theorem C37_same_exemptions {ta : TwoAdic F} {air : Air F Ch} {d : Domain F} {a b : Nat} (ha : 1 ≤ a)
    (hn : air.traceLength = 2 ^ a) (hb : air.context.proofOptions.blowupFactor.toNat = 2 ^ b)
    (hd : Domain.new ta air = .ok d) (hne : air.context.transitionExemptions ≠ [])
    (hlt : ∀ e ∈ air.context.transitionExemptions, e < air.traceLength)
    (hnum : air.context.numTransitionExemptions
      = (air.context.transitionExemptions.filter (0 < ·)).dedup.length) :
    ∃ polys evaluations last verifierPolys,
      transitionExemptions ta air = .ok polys ∧
      evaluateTransitionExemptions ta polys d = .ok evaluations ∧
      d.traceRootsOfUnity.getLast? = some last ∧
      transitionExemptionsVerifier air last = .ok verifierPolys ∧
      ∀ e ∈ air.context.transitionExemptions, ∃ E : F[X],
        (∀ x, E.eval x = 0 ↔ ∃ i, air.traceLength - e ≤ i ∧ i < air.traceLength ∧
          x = d.tracePrimitiveRoot ^ i) ∧
        (∀ i x, d.ldeRootsOfUnityCoset[i]? = some x →
          exemptionFactor air.context.transitionExemptions air.context.numTransitionExemptions
            evaluations e i = .ok (E.eval x)) ∧
        (0 < e → verifierPolys[e - 1]? = some E) := by
  obtain ⟨g, w, D⟩ := domain_new ha hn hb hd
  obtain ⟨m, hm⟩ : ∃ m, air.context.transitionExemptions.max? = some m := by
    cases h : air.context.transitionExemptions.max? with
    | none => exact absurd (List.max?_eq_none_iff.mp h) hne
    | some m => exact ⟨m, rfl⟩
  have hmax := (List.max?_eq_some_iff.mp hm).2
  have hpos : 0 < 2 ^ a := by positivity
  obtain ⟨l, hl1, hl2, hl3⟩ := transitionExemptionsVerifier_eq (g := g) D.g_primitive.pow_eq_one hpos hm
  have hev := evaluateTransitionExemptions_ok D hn (l := (unique air.context.transitionExemptions).filter
    (0 < ·)) (by
      intro e he
      exact hlt e ((mem_unique _ _).mp (List.mem_filter.mp he).1))
  refine ⟨_, _, g ^ (2 ^ a - 1), l, transitionExemptions_eq (by have := D.small; omega) hn D.hg, hev,
    ?_, hl1, fun e he => ⟨exemption g (2 ^ a) e, ?_, ?_, ?_⟩⟩
  · rw [D.traceRoots, List.getLast?_map, List.getLast?_range, if_neg (by omega)]; rfl
  · intro x
    rw [exemption_eval, D.tracePrimitiveRoot, hn]
  · intro i x hx
    have hi : i < 2 ^ (a + b) := by
      rw [← D.lde_length]
      exact (List.getElem?_eq_some_iff.mp hx).1
    rw [D.lde_getElem? hi] at hx
    rw [← Option.some.inj hx]
    refine exemptionFactor_ok air hlt ?_ (xs := fun i => w ^ i * _) i hi hn e he
    intro h1 e he e' he' hp hp'
    rw [hnum] at h1
    obtain ⟨x, hx⟩ := List.length_eq_one_iff.mp h1
    have hin : ∀ y ∈ air.context.transitionExemptions, 0 < y → y = x := by
      intro y hy hy0
      have : y ∈ (air.context.transitionExemptions.filter (0 < ·)).dedup := by simp [hy, hy0]
      rw [hx] at this
      simpa using this
    rw [hin e he hp, hin e' he' hp']
  · intro hpos
    have h1 := hmax e he
    have h2 := hlt e he
    rw [hn] at h2
    rw [hl3 (e - 1) (by omega) (by omega), Nat.sub_add_cancel hpos]

/-- An AIR over the field with 17 elements with four rows, blowup factor 2 and three constraints exempted
from the last row, from none and from the last two. -/
def exemptAir (num : Nat) : Air (ZMod 17) Unit where
  context := ⟨⟨2, 1, 3, 0⟩, 1, [1, 1, 1], [0, 1], [1, 0, 2], 3, num⟩
  traceLength := 4
  compositionPolyDegreeBound := 4
  numberAuxiliaryRapColumns := 0
  numRapChallenges := 0
  rapChallenges := fun _ => ()
  buildAuxiliaryTrace := fun _ _ => .ok ⟨[], 0⟩
  computeTransition := fun _ _ => .ok [0, 0, 0]
  boundaryConstraints := fun _ => .ok []

/-- The hypotheses of `C37_same_exemptions` hold for `exemptAir 2`. -/
example : ∃ d, Domain.new roots17 (exemptAir 2) = .ok d ∧ (exemptAir 2).traceLength = 2 ^ 2 ∧
    (exemptAir 2).context.proofOptions.blowupFactor.toNat = 2 ^ 1 ∧
    (∀ e ∈ (exemptAir 2).context.transitionExemptions, e < (exemptAir 2).traceLength) ∧
    (exemptAir 2).context.numTransitionExemptions
      = ((exemptAir 2).context.transitionExemptions.filter (0 < ·)).dedup.length := by
  obtain ⟨d, hd⟩ := domain_exists (ta := roots17) (air := exemptAir 2) (a := 2) (b := 1) (by norm_num) rfl
    rfl (by norm_num) (by decide)
  exact ⟨d, hd, rfl, rfl, by decide, by decide⟩

/-- The declared number of exemptions matters: declaring one kind of exemption for constraints with two
kinds makes the prover use, for the constraint exempted from the last two rows, the factor of the last
row only. It differs from the verifier's at every point of the extended domain other than one. -/
theorem C37_wrong_count {d : Domain (ZMod 17)} (hd : Domain.new roots17 (exemptAir 1) = .ok d) :
    ∃ polys evaluations last verifierPolys E,
      transitionExemptions roots17 (exemptAir 1) = .ok polys ∧
      evaluateTransitionExemptions roots17 polys d = .ok evaluations ∧
      d.traceRootsOfUnity.getLast? = some last ∧
      transitionExemptionsVerifier (exemptAir 1) last = .ok verifierPolys ∧
      verifierPolys[1]? = some E ∧
      ∀ i x, d.ldeRootsOfUnityCoset[i]? = some x → E.eval x ≠ 0 → x ≠ d.tracePrimitiveRoot ^ 2 + 1 →
        exemptionFactor (exemptAir 1).context.transitionExemptions 1 evaluations 2 i
          ≠ .ok (E.eval x) := by
  obtain ⟨g, w, D⟩ := domain_new (a := 2) (b := 1) (by norm_num) rfl rfl hd
  obtain ⟨l, hl1, hl2, hl3⟩ := transitionExemptionsVerifier_eq (g := g) (air := exemptAir 1) (n := 4) (m := 2)
    D.g_primitive.pow_eq_one (by norm_num) (by decide)
  have hev := evaluateTransitionExemptions_ok D (air := exemptAir 1) rfl (l := (unique
    (exemptAir 1).context.transitionExemptions).filter (0 < ·)) (by decide)
  refine ⟨_, _, g ^ (4 - 1), l, _, transitionExemptions_eq (a := 2) (by norm_num) rfl D.hg, hev, ?_, hl1,
    hl3 1 (by norm_num) (by norm_num), ?_⟩
  · rw [D.traceRoots]; rfl
  · intro i x hx hE hne
    have hi : i < 2 ^ (2 + 1) := by
      rw [← D.lde_length]
      exact (List.getElem?_eq_some_iff.mp hx).1
    rw [D.lde_getElem? hi] at hx
    have hu : (unique (exemptAir 1).context.transitionExemptions).filter (0 < ·) = [1, 2] := by decide
    have hf : exemptionFactor (exemptAir 1).context.transitionExemptions 1
        (((unique (exemptAir 1).context.transitionExemptions).filter (0 < ·)).map fun e =>
          (List.range (2 ^ (2 + 1))).map fun i =>
            (exemption g (2 ^ 2) (min e (2 ^ 2))).eval
              (w ^ i * ((exemptAir 1).context.proofOptions.cosetOffset : ZMod 17))) 2 i
        = .ok ((exemption g 4 1).eval x) := by
      unfold exemptionFactor
      rw [hu]
      simp only [if_neg (by norm_num : ¬ (2 : Nat) = 0), if_true, List.map_cons]
      rw [index_ok (a := _) (by rfl), Outcome.bind_ok]
      apply index_ok
      rw [List.getElem?_map, List.getElem?_range hi, ← Option.some.inj hx]
      rfl
    rw [hf]
    intro hc
    have hc := Outcome.ok.inj hc
    have h2 : (exemption g 4 (1 + 1)).eval x = (x - g ^ 2) * (exemption g 4 1).eval x := by
      unfold exemption
      rw [show Finset.Ico (4 - (1 + 1)) 4 = {2, 3} by decide, show Finset.Ico (4 - 1) 4 = {3} by decide]
      simp
    rw [h2] at hc hE
    rw [D.tracePrimitiveRoot] at hne
    apply hne
    have h3 : (exemption g 4 1).eval x ≠ 0 := right_ne_zero_of_mul hE
    have : x - g ^ 2 = 1 := mul_right_cancel₀ h3 (by rw [one_mul]; exact hc.symm)
    linear_combination this

end Verif.Props
