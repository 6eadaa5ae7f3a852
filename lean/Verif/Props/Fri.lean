import Verif.Lemmas.Fri
import Verif.Examples.SmallEnv
import Mathlib.Tactic.ComputeDegree

/-!
# Properties of FRI (C41, C42)
-/

namespace Verif.Props
open Polynomial
variable {F T : Type} [Field F] [DecidableEq F]

/-- C41: a polynomial is `E(X²) + X O(X²)` for exactly one pair of polynomials, and folding it with
`beta` gives `E + beta O`. -/
theorem C41_fold_parts (p : F[X]) (beta : F) :
    ∃! EO : F[X] × F[X], p = EO.1.comp (X ^ 2) + X * EO.2.comp (X ^ 2) ∧
      Fri.foldPolynomial p beta = EO.1 + C beta * EO.2 := by
  refine ⟨evenOdd p, ⟨?_, fold_eq p beta⟩, ?_⟩
  · have := evenOdd_expand p
    simpa only [expand_eq_comp_X_pow] using this
  · rintro ⟨E, O⟩ ⟨h, -⟩
    simp only [← expand_eq_comp_X_pow] at h
    have hc : ∀ i, p.coeff (2 * i) = E.coeff i ∧ p.coeff (2 * i + 1) = O.coeff i := by
      intro i
      constructor
      · rw [h, coeff_add, mul_comm 2 i, coeff_expand_mul (by norm_num : 0 < 2)]
        cases i with
        | zero => simp
        | succ i =>
          rw [show (i + 1) * 2 = (2 * i + 1) + 1 by ring, coeff_X_mul, coeff_expand (by norm_num),
            if_neg (by omega), add_zero]
      · rw [h, coeff_add, coeff_X_mul, mul_comm 2 i, coeff_expand_mul (by norm_num : 0 < 2),
          coeff_expand (by norm_num), if_neg (by omega), zero_add]
    refine Prod.ext ?_ ?_
    · ext i; rw [even_coeff]; exact (hc i).1.symm
    · ext i; rw [odd_coeff]; exact (hc i).2.symm

/-- C41: folding halves the degree bound. -/
theorem C41_fold_degree (p : F[X]) (beta : F) (n : Nat) (h : p.degree < (2 * n : Nat)) :
    (Fri.foldPolynomial p beta).degree < n := fold_degree p beta n h

/-- C41: the value of the folded polynomial at `x²` is computed from the values at `x` and `-x` by the
formula the verifier uses. -/
theorem C41_fold_eval (p : F[X]) (beta x : F) (hx : x ≠ 0) (h2 : (2 : F) ≠ 0) :
    (Fri.foldPolynomial p beta).eval (x ^ 2) =
      (p.eval x + p.eval (-x)) / 2 + beta * (p.eval x - p.eval (-x)) / (2 * x) := by
  rw [fold_eval p beta x hx h2]
  field_simp

/-- Folding `X³ + 2X + 5` over the field with 17 elements. -/
example : (Fri.foldPolynomial (X ^ 3 + 2 * X + 5 : (ZMod 17)[X]) 3).degree < (2 : Nat) ∧
    (Fri.foldPolynomial (X ^ 3 + 2 * X + 5 : (ZMod 17)[X]) 3).eval (2 ^ 2) = 6 := by
  constructor
  · refine C41_fold_degree _ _ 2 ?_
    refine lt_of_le_of_lt (b := 3) (by compute_degree) (by norm_num)
  · rw [C41_fold_eval _ _ _ (by decide) (by decide)]
    simp only [eval_add, eval_mul, eval_pow, eval_X, eval_ofNat]
    decide +kernel

/-- C42: the commit phase on a polynomial of degree below `2^a` succeeds, and every query index has an
answer, which the verifier accepts with the challenges it derives from the committed roots. The
answer's first value is the value of the polynomial at the queried point. -/
theorem C42_queries_accepted (env : Env F T) (p : F[X]) (t : T) (h w : F) (a b : Nat) (ha : 1 ≤ a)
    (hb : 1 ≤ b) (hab : a + b < 64) (hh : h ≠ 0) (hw : env.ta.root (a + b) = some w)
    (hp : p.degree < (2 ^ a : Nat)) :
    ∃ last layers t', Fri.commitPhase env a p t h (2 ^ (a + b)) = .ok (last, layers, t') ∧
      ∀ iota, ∃ d, Fri.answerQuery env layers iota = .ok d ∧
        d.layersEvaluations[0]? = some (p.eval (w ^ iota * h)) ∧
        ∀ (proof : StarkProof F) (domain : Domain F), domain.ldeRootOrder = a + b →
          proof.friLayersMerkleRoots = layers.map (·.merkleTree.root) → proof.friLastValue = last →
          verifyQuery env proof (sampleZetas env proof.friLayersMerkleRoots t).1 iota d domain
            (w ^ iota * h)⁻¹ (2 : F)⁻¹ = .ok true := by
  have hp' : p.degree < (2 ^ (a + b) : Nat) := lt_of_lt_of_le hp
    (by exact_mod_cast Nat.pow_le_pow_right (by norm_num) (by omega))
  obtain ⟨⟨last, layers, t'⟩, hc⟩ := Fri.commitPhase_exists (t := t) (h := h) ha hb hab hp' hw
  obtain ⟨hlen, zs, q, ps, tz, hz, -, hf, hq⟩ := Fri.commitPhase_folds (b := b) ha hp hc
  refine ⟨last, layers, t', hc, fun iota => ?_⟩
  obtain ⟨d, hd⟩ := Fri.answerQuery_exists hb hab hw hp' hlen hf iota
  have key := fun (proof : StarkProof F) (domain : Domain F) (h1 : domain.ldeRootOrder = a + b)
    (h2 : proof.friLayersMerkleRoots = layers.map (·.merkleTree.root))
    (h3 : proof.friLastValue = last) =>
    Fri.verifyQuery_ok ha hb hab hh hw hp hlen hf iota hd h1 h2 (by rw [hq, h3])
  refine ⟨d, hd, ?_, fun proof domain h1 h2 h3 => ?_⟩
  · exact (key ⟨0, [], ⟨[], 0⟩, Examples.digest 0, 0, 0, layers.map (·.merkleTree.root), last, [], [], 0⟩
      ⟨0, [], a + b, 0, [], 0, 0, 0⟩ rfl rfl rfl).1
  · have := (key proof domain h1 h2 h3).2
    rwa [h2, hz]

/-- Committing to `X³ + 2X + 5` on the coset `3⟨9⟩` of the field with 17 elements. -/
example := C42_queries_accepted Examples.env17 (X ^ 3 + 2 * X + 5 : (ZMod 17)[X]) 0 3 9 2 1
  (by norm_num) (by norm_num) (by norm_num) (by decide) (by decide)
  (lt_of_le_of_lt (b := 3) (by compute_degree) (by norm_num))

end Verif.Props
