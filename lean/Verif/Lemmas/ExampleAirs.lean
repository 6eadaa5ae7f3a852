import Verif.Model.ExampleAirs
import Verif.Spec.ExampleAirs
import Verif.Spec.Stark
import Verif.Lemmas.Rounds

/-!
# Lemmas about the example AIRs
-/

namespace Verif.ExampleAirs
open Verif.Spec MvPolynomial
variable {F : Type} [Field F]

theorem getRow_flatten {ε : Type} {rows : List (List F)} {w : Nat} (hw : ∀ r ∈ rows, r.length = w) {k : Nat}
    (hk : k < rows.length) :
    (Frame.getRow ⟨rows.flatten, w⟩ k : Outcome ε _) = .ok (rows.getD k []) := by
  unfold Frame.getRow
  have := subslice_flatten (ε := ε) rows w hw k hk
  simp only at this ⊢
  rw [this, List.getD_eq_getElem _ _ hk]

theorem index_getD {ε : Type} {l : List F} {i : Nat} (h : i < l.length) :
    (index l i : Outcome ε F) = .ok (l.getD i 0) := by
  rw [index_ok (List.getElem?_eq_getElem h), List.getD_eq_getElem _ _ h]

theorem row_length {rows : List (List F)} {w : Nat} (hw : ∀ r ∈ rows, r.length = w) {k : Nat}
    (hk : k < rows.length) : (rows.getD k []).length = w := by
  rw [List.getD_eq_getElem _ _ hk]
  exact hw _ (List.getElem_mem hk)

theorem fibonacciTransition_eq {rows : List (List F)} (hl : 3 ≤ rows.length) (hw : ∀ r ∈ rows, r.length = 1) :
    fibonacciTransition ⟨rows.flatten, 1⟩ () = .ok [cell rows 2 0 - cell rows 1 0 - cell rows 0 0] := by
  have h := fun k (hk : k < 3) => row_length hw (k := k) (by omega)
  unfold fibonacciTransition
  simp only [getRow_flatten hw (show 0 < rows.length by omega), getRow_flatten hw (show 1 < rows.length by omega),
    getRow_flatten hw (show 2 < rows.length by omega), Outcome.bind_ok, Outcome.pure_eq,
    index_getD (show 0 < (rows.getD 2 []).length by rw [h]; omega; omega),
    index_getD (show 0 < (rows.getD 1 []).length by rw [h]; omega; omega),
    index_getD (show 0 < (rows.getD 0 []).length by rw [h]; omega; omega)]
  rfl

theorem fibonacci2Transition_eq {rows : List (List F)} (hl : 2 ≤ rows.length)
    (hw : ∀ r ∈ rows, r.length = 2) :
    fibonacci2Transition ⟨rows.flatten, 2⟩ () = .ok [cell rows 1 0 - cell rows 0 0 - cell rows 0 1,
      cell rows 1 1 - cell rows 0 1 - cell rows 1 0] := by
  have h := fun k (hk : k < 2) => row_length hw (k := k) (by omega)
  have h0 := h 0 (by omega)
  have h1 := h 1 (by omega)
  unfold fibonacci2Transition
  simp only [getRow_flatten hw (show 0 < rows.length by omega), getRow_flatten hw (show 1 < rows.length by omega),
    Outcome.bind_ok, Outcome.pure_eq,
    index_getD (show 0 < (rows.getD 1 []).length by omega),
    index_getD (show 1 < (rows.getD 1 []).length by omega),
    index_getD (show 0 < (rows.getD 0 []).length by omega),
    index_getD (show 1 < (rows.getD 0 []).length by omega)]
  rfl

theorem quadraticTransition_eq {rows : List (List F)} (hl : 2 ≤ rows.length)
    (hw : ∀ r ∈ rows, r.length = 1) :
    quadraticTransition ⟨rows.flatten, 1⟩ () = .ok [cell rows 1 0 - cell rows 0 0 * cell rows 0 0] := by
  have h := fun k (hk : k < 2) => row_length hw (k := k) (by omega)
  have h0 := h 0 (by omega)
  have h1 := h 1 (by omega)
  unfold quadraticTransition
  simp only [getRow_flatten hw (show 0 < rows.length by omega), getRow_flatten hw (show 1 < rows.length by omega),
    Outcome.bind_ok, Outcome.pure_eq,
    index_getD (show 0 < (rows.getD 1 []).length by omega),
    index_getD (show 0 < (rows.getD 0 []).length by omega)]
  rfl

theorem dummyTransition_eq {rows : List (List F)} (hl : 3 ≤ rows.length) (hw : ∀ r ∈ rows, r.length = 2) :
    dummyTransition ⟨rows.flatten, 2⟩ () = .ok [cell rows 0 0 * (cell rows 0 0 - 1),
      cell rows 2 1 - cell rows 1 1 - cell rows 0 1] := by
  have h := fun k (hk : k < 3) => row_length hw (k := k) (by omega)
  have h0 := h 0 (by omega)
  have h1 := h 1 (by omega)
  have h2 := h 2 (by omega)
  unfold dummyTransition
  simp only [getRow_flatten hw (show 0 < rows.length by omega), getRow_flatten hw (show 1 < rows.length by omega),
    getRow_flatten hw (show 2 < rows.length by omega), Outcome.bind_ok, Outcome.pure_eq,
    index_getD (show 0 < (rows.getD 0 []).length by omega),
    index_getD (show 1 < (rows.getD 0 []).length by omega),
    index_getD (show 1 < (rows.getD 1 []).length by omega),
    index_getD (show 1 < (rows.getD 2 []).length by omega)]
  rfl

theorem fibonacciRapTransition_eq {rows : List (List F)} (hl : 3 ≤ rows.length)
    (hw : ∀ r ∈ rows, r.length = 3) (γ : F) :
    fibonacciRapTransition ⟨rows.flatten, 3⟩ γ = .ok [cell rows 2 0 - cell rows 1 0 - cell rows 0 0,
      cell rows 1 2 * (cell rows 0 1 + γ) - cell rows 0 2 * (cell rows 0 0 + γ)] := by
  have h := fun k (hk : k < 3) => row_length hw (k := k) (by omega)
  have h0 := h 0 (by omega)
  have h1 := h 1 (by omega)
  have h2 := h 2 (by omega)
  unfold fibonacciRapTransition
  simp only [getRow_flatten hw (show 0 < rows.length by omega), getRow_flatten hw (show 1 < rows.length by omega),
    getRow_flatten hw (show 2 < rows.length by omega), Outcome.bind_ok, Outcome.pure_eq,
    index_getD (show 0 < (rows.getD 0 []).length by omega),
    index_getD (show 1 < (rows.getD 0 []).length by omega),
    index_getD (show 2 < (rows.getD 0 []).length by omega),
    index_getD (show 0 < (rows.getD 1 []).length by omega),
    index_getD (show 2 < (rows.getD 1 []).length by omega),
    index_getD (show 0 < (rows.getD 2 []).length by omega)]
  rfl

/-- The frames of a trace, as lists of rows. -/
theorem frameAt_eq {rows : List (List F)} {w : Nat} (hw : ∀ r ∈ rows, r.length = w) (hpos : 0 < rows.length)
    (offsets : List Nat) (i : Nat) :
    ∃ fr : List (List F), frameAt rows w offsets i = ⟨fr.flatten, w⟩ ∧ fr.length = offsets.length ∧
      (∀ r ∈ fr, r.length = w) ∧
      ∀ j o c, offsets[j]? = some o → cell fr j c = cell rows ((i + o) % rows.length) c := by
  refine ⟨offsets.map fun o => rows.getD ((i + o) % rows.length) [], rfl, by simp, ?_, ?_⟩
  · intro r hr
    obtain ⟨o, -, rfl⟩ := List.mem_map.mp hr
    exact row_length hw (Nat.mod_lt _ hpos)
  · intro j o c hj
    unfold cell
    simp [List.getD, hj]

/-! ## The declared data -/

theorem totalDegree_X_sub_X_sub_X (i j k : Nat × Nat) :
    (X i - X j - X k : MvPolynomial (Nat × Nat) F).totalDegree ≤ 1 := by
  refine (totalDegree_sub _ _).trans (max_le ((totalDegree_sub _ _).trans (max_le ?_ ?_)) ?_) <;>
    rw [totalDegree_X]

theorem fibonacci_polynomial (n : Nat) (pi : FibonacciPublicInputs F) (opts : ProofOptions) {air : Air F Unit}
    (h : fibonacci n pi opts = .ok air) (ch : Unit) :
    PolynomialConstraints air ch [X (2, 0) - X (1, 0) - X (0, 0)] := by
  obtain rfl := Outcome.ok.inj h
  refine ⟨fun rows hl hw => ?_, ?_⟩
  · simp only at hl hw ⊢
    rw [fibonacciTransition_eq (by rw [hl]; decide) hw]
    simp [cell]
  · intro k c d hc hd
    match k with
    | 0 =>
      simp only [List.getElem?_cons_zero, Option.some.injEq] at hc hd
      subst hc hd
      exact totalDegree_X_sub_X_sub_X _ _ _
    | k + 1 => simp at hc

theorem fibonacci2_polynomial (n : Nat) (pi : FibonacciPublicInputs F) (opts : ProofOptions) {air : Air F Unit}
    (h : fibonacci2 n pi opts = .ok air) (ch : Unit) :
    PolynomialConstraints air ch [X (1, 0) - X (0, 0) - X (0, 1), X (1, 1) - X (0, 1) - X (1, 0)] := by
  obtain rfl := Outcome.ok.inj h
  refine ⟨fun rows hl hw => ?_, ?_⟩
  · simp only at hl hw ⊢
    rw [fibonacci2Transition_eq (by rw [hl]; decide) hw]
    simp [cell]
  · intro k c d hc hd
    match k with
    | 0 | 1 =>
      simp only [List.getElem?_cons_zero, List.getElem?_cons_succ, Option.some.injEq] at hc hd
      subst hc hd
      exact totalDegree_X_sub_X_sub_X _ _ _
    | k + 2 => simp at hc

theorem totalDegree_X_mul_X (i j : Nat × Nat) :
    (X i * X j : MvPolynomial (Nat × Nat) F).totalDegree ≤ 2 := by
  refine (totalDegree_mul _ _).trans ?_
  rw [totalDegree_X, totalDegree_X]

theorem quadratic_polynomial (n : Nat) (pi : F) (opts : ProofOptions) {air : Air F Unit}
    (h : quadratic n pi opts = .ok air) (ch : Unit) :
    PolynomialConstraints air ch [X (1, 0) - X (0, 0) * X (0, 0)] := by
  obtain rfl := Outcome.ok.inj h
  refine ⟨fun rows hl hw => ?_, ?_⟩
  · simp only at hl hw ⊢
    rw [quadraticTransition_eq (by rw [hl]; decide) hw]
    simp [cell]
  · intro k c d hc hd
    match k with
    | 0 =>
      simp only [List.getElem?_cons_zero, Option.some.injEq] at hc hd
      subst hc hd
      exact (totalDegree_sub _ _).trans (max_le (by rw [totalDegree_X]; decide) (totalDegree_X_mul_X _ _))
    | k + 1 => simp at hc

theorem dummy_polynomial (n : Nat) (pi : Unit) (opts : ProofOptions) {air : Air F Unit}
    (h : dummy n pi opts = .ok air) (ch : Unit) :
    PolynomialConstraints air ch [X (0, 0) * (X (0, 0) - 1), X (2, 1) - X (1, 1) - X (0, 1)] := by
  obtain rfl := Outcome.ok.inj h
  refine ⟨fun rows hl hw => ?_, ?_⟩
  · simp only at hl hw ⊢
    rw [dummyTransition_eq (by rw [hl]; decide) hw]
    simp [cell]
  · intro k c d hc hd
    match k with
    | 0 =>
      simp only [List.getElem?_cons_zero, Option.some.injEq] at hc hd
      subst hc hd
      refine (totalDegree_mul _ _).trans ?_
      have h1 : (X (0, 0) - 1 : MvPolynomial (Nat × Nat) F).totalDegree ≤ 1 :=
        (totalDegree_sub _ _).trans (max_le (by rw [totalDegree_X]) (by simp))
      rw [totalDegree_X]
      omega
    | 1 =>
      simp only [List.getElem?_cons_zero, List.getElem?_cons_succ, Option.some.injEq] at hc hd
      subst hc hd
      exact totalDegree_X_sub_X_sub_X _ _ _
    | k + 2 => simp at hc

theorem fibonacciRap_eq [DecidableEq F] {n : Nat} {pi : FibonacciRAPPublicInputs F} {opts : ProofOptions}
    {air : Air F F} (h : fibonacciRap n pi opts = .ok air) :
    pi.steps ≤ n + 2 ∧ air.context.transitionExemptions = [n + 2 - pi.steps, 1] ∧
    air.context.traceColumns = 3 ∧ air.context.transitionDegrees = [1, 2] ∧
    air.context.transitionOffsets = [0, 1, 2] ∧ air.context.numTransitionConstraints = 2 ∧
    air.context.numTransitionExemptions = 2 ∧ air.traceLength = n ∧ air.compositionPolyDegreeBound = n ∧
    air.numberAuxiliaryRapColumns = 1 ∧ air.buildAuxiliaryTrace = fibonacciRapAux ∧
    air.computeTransition = fibonacciRapTransition ∧ air.context.proofOptions = opts ∧
    air.boundaryConstraints = fun _ => .ok [⟨0, 0, 1⟩, ⟨0, 1, 1⟩, ⟨2, 0, 1⟩] := by
  unfold fibonacciRap at h
  simp only [Outcome.bind_eq_ok, checkedSub_ok, Outcome.pure_eq, Outcome.ok.injEq] at h
  obtain ⟨e, ⟨h1, rfl⟩, e', ⟨h2, rfl⟩, rfl⟩ := h
  refine ⟨by omega, ?_, rfl, rfl, rfl, rfl, rfl, rfl, rfl, rfl, rfl, rfl, rfl, rfl⟩
  simp only [List.cons.injEq, and_true]
  omega

theorem fibonacciRap_polynomial [DecidableEq F] (n : Nat) (pi : FibonacciRAPPublicInputs F)
    (opts : ProofOptions) {air : Air F F} (h : fibonacciRap n pi opts = .ok air) (γ : F) :
    PolynomialConstraints air γ [X (2, 0) - X (1, 0) - X (0, 0),
      X (1, 2) * (X (0, 1) + C γ) - X (0, 2) * (X (0, 0) + C γ)] := by
  obtain ⟨-, -, hc1, hc2, hc3, -, -, -, -, -, -, hc4, -, -⟩ := fibonacciRap_eq h
  refine ⟨fun rows hl hw => ?_, ?_⟩
  · rw [hc3] at hl
    rw [hc1] at hw ⊢
    rw [hc4, fibonacciRapTransition_eq (by rw [hl]; decide) hw]
    simp [cell]
  · intro k c d hc hd
    rw [hc2] at hd
    match k with
    | 0 =>
      simp only [List.getElem?_cons_zero, Option.some.injEq] at hc hd
      subst hc hd
      exact totalDegree_X_sub_X_sub_X _ _ _
    | 1 =>
      simp only [List.getElem?_cons_zero, List.getElem?_cons_succ, Option.some.injEq] at hc hd
      subst hc hd
      have h1 : ∀ i : Nat × Nat, (X i + C γ : MvPolynomial (Nat × Nat) F).totalDegree ≤ 1 := fun i =>
        (totalDegree_add _ _).trans (max_le (by rw [totalDegree_X]) (by simp))
      have h2 : ∀ i j : Nat × Nat, (X i * (X j + C γ) : MvPolynomial (Nat × Nat) F).totalDegree ≤ 2 := by
        intro i j
        refine (totalDegree_mul _ _).trans ?_
        have := h1 j
        rw [totalDegree_X]
        omega
      exact (totalDegree_sub _ _).trans (max_le (h2 _ _) (h2 _ _))
    | k + 2 => simp at hc

theorem fibonacci_fits {n : Nat} (hn : 3 ≤ n) (pi : FibonacciPublicInputs F) (opts : ProofOptions)
    {air : Air F Unit} (h : fibonacci n pi opts = .ok air) : Fits air := by
  obtain rfl := Outcome.ok.inj h
  constructor <;> simp
  · decide
  · omega
  · omega
  · intro k d e h1 h2
    match k with
    | 0 => simp at h1 h2; omega
    | k + 1 => simp at h1

theorem fibonacci2_fits {n : Nat} (hn : 2 ≤ n) (pi : FibonacciPublicInputs F) (opts : ProofOptions)
    {air : Air F Unit} (h : fibonacci2 n pi opts = .ok air) : Fits air := by
  obtain rfl := Outcome.ok.inj h
  constructor <;> simp
  · decide
  · omega
  · omega
  · intro k d e h1 h2
    match k with
    | 0 | 1 => simp at h1 h2; omega
    | k + 2 => simp at h1

theorem quadratic_fits {n : Nat} (hn : 2 ≤ n) (pi : F) (opts : ProofOptions) {air : Air F Unit}
    (h : quadratic n pi opts = .ok air) : Fits air := by
  obtain rfl := Outcome.ok.inj h
  constructor <;> simp
  · decide
  · omega
  · omega
  · omega
  · intro k d e h1 h2
    match k with
    | 0 => simp at h1 h2; omega
    | k + 1 => simp at h1

theorem dummy_fits {n : Nat} (hn : 3 ≤ n) (pi : Unit) (opts : ProofOptions) {air : Air F Unit}
    (h : dummy n pi opts = .ok air) : Fits air := by
  obtain rfl := Outcome.ok.inj h
  constructor <;> simp
  · decide
  · omega
  · omega
  · intro k d e h1 h2
    match k with
    | 0 | 1 => simp at h1 h2; omega
    | k + 2 => simp at h1

theorem fibonacciRap_fits [DecidableEq F] {n : Nat} (pi : FibonacciRAPPublicInputs F) (hn : 3 ≤ n)
    (hs : 3 ≤ pi.steps) (opts : ProofOptions) {air : Air F F} (h : fibonacciRap n pi opts = .ok air) :
    Fits air := by
  obtain ⟨hs2, hc0, hc1, hc2, hc3, hc5, hc6, hc7, hc8, hc9, -, -, -, -⟩ := fibonacciRap_eq h
  constructor <;> simp only [hc0, hc1, hc2, hc3, hc5, hc6, hc7, hc8, hc9] <;> try simp
  · decide
  · omega
  · omega
  · intro k d e h1 h2
    match k with
    | 0 | 1 => simp at h1 h2; omega
    | k + 2 => simp at h1

end Verif.ExampleAirs
