import Verif.Props.StarkSound
import Verif.Props.ExampleAirs
import Verif.Props.CairoPermutation
import Verif.Spec.Sound
import Verif.Lemmas.CairoPoly

/-!
# C73: soundness with an auxiliary trace, and what the provided AIRs then claim
-/

namespace Verif.Props
open Polynomial Spec Proximity Finset

variable {F Ch : Type} [Field F] [DecidableEq F]

/-- **C73.** The game in two phases: the prover commits to the columns `main`; the verifier draws the challenges `e`
of the auxiliary trace; the prover commits to the columns `aux e` and goes on with a strategy that may depend on `e`.
The probability that the prover satisfies the verifier is at most the probability that the challenges are such that
all the columns together decode to a trace that satisfies the AIR for these challenges, plus the error of the game. -/
theorem C73_rap_error [Fintype F] {ta : TwoAdic F} {air : Air F Ch} {a b : Nat} (S : Setting air a b)
    {d : Domain F} (hd : Domain.new ta air = .ok d) {w : F} (hw : ta.root (a + b) = some w)
    (hc : ∀ ch, ∃ cs, PolynomialConstraints air ch cs ∧ cs.length = air.context.numTransitionConstraints) {nb : Nat}
    (hb : ∀ ch boundary, air.boundaryConstraints ch = .ok boundary → boundary.length = nb ∧
      ∀ c ∈ boundary, c.col < air.context.traceColumns ∧ c.step < 2 ^ a)
    {main : List (Nat → F)} {aux : List F → List (Nat → F)}
    (hcols : ∀ e, main.length + (aux e).length = air.context.traceColumns)
    {R m : Nat} (hR : DecodingRadius a b R m) (P : List F → StarkStrategy F) (q : Nat) :
    probability ((Fin air.numRapChallenges → F) × Draws F nb air.context.numTransitionConstraints
        (air.context.traceColumns * air.context.transitionOffsets.length) a q (2 ^ (a + b)))
      (fun (e, draws) => (P (List.ofFn e)).Wins air d a b w (air.rapChallenges (List.ofFn e))
        (main ++ aux (List.ofFn e)) draws)
    ≤ probability (Fin air.numRapChallenges → F) (fun e =>
        DecodesTo d w air.context.proofOptions.cosetOffset a b R (main ++ aux (List.ofFn e)) fun rows =>
          Satisfies air rows air.context.traceColumns (air.rapChallenges (List.ofFn e)))
      + soundnessError (Fintype.card F) nb air.context.numTransitionConstraints air.context.traceColumns
          air.context.transitionOffsets.length a b R m q := by
  have hne : Nonempty (Fin (2 ^ (a + b))) := ⟨⟨0, by positivity⟩⟩
  have hbase : (0 : ℚ) ≤ (1 - (R + 1) / 2 ^ (a + b)) ^ q := by
    refine pow_nonneg (sub_nonneg.mpr (div_le_one_of_le₀ ?_ (by positivity))) q
    exact_mod_cast (by have : 0 < 2 ^ a := by positivity
                       have := hR.unique
                       omega : R + 1 ≤ 2 ^ (a + b))
  refine probability_step (A := fun e => ¬ DecodesTo d w air.context.proofOptions.cosetOffset a b R
      (main ++ aux (List.ofFn e)) fun rows =>
          Satisfies air rows air.context.traceColumns (air.rapChallenges (List.ofFn e)))
    (probability_mono fun e he => not_not.1 he) (fun e he => ?_) (by unfold soundnessError; positivity)
  obtain ⟨cs, h1, h2⟩ := hc (air.rapChallenges (List.ofFn e))
  by_cases h3 : ∃ boundary, air.boundaryConstraints (air.rapChallenges (List.ofFn e)) = .ok boundary
  swap
  · refine le_trans (le_of_eq ?_) (show (0 : ℚ) ≤ _ by unfold soundnessError; positivity)
    classical
    rw [probability_eq, Finset.filter_eq_empty_iff.mpr]
    · simp
    · rintro ⟨αB, βB, αT, βT, z, γe, γo, γ, ζ, ι⟩ - hwin
      have hs := hwin.2.2.1
      unfold step2 at hs
      obtain ⟨boundary, hbd, -⟩ := Outcome.bind_eq_ok.1 hs
      exact h3 ⟨boundary, hbd⟩
  obtain ⟨boundary, h3⟩ := h3
  obtain ⟨rfl, h4⟩ := hb _ _ h3
  refine C68_stark_error S hd hw h1 h2 h3 h4 (by rw [List.length_append]; exact hcols _) hR ?_ _ q
  rintro ⟨polys, hp, hs⟩
  refine he ⟨polys, hp, ?_⟩
  rw [hp.length, List.length_append, hcols] at hs
  exact hs

omit [DecidableEq F] in
/-- The first of some words that decode decode. -/
theorem decodes_append {N k R : Nat} {x : Nat → F} {u v : List (Nat → F)} {polys : List F[X]}
    (h : Decodes N x k R (u ++ v) polys) : Decodes N x k R u (polys.take u.length) := by
  have hl := h.length
  rw [List.length_append] at hl
  refine ⟨by rw [List.length_take]; omega, fun p hp => h.degree p (List.mem_of_mem_take hp), ?_⟩
  obtain ⟨good, h1, h2⟩ := h.agree
  refine ⟨good, h1, fun s hs => ⟨(h2 s hs).1, fun j f p hf hp => ?_⟩⟩
  obtain ⟨hj, -⟩ := List.getElem?_eq_some_iff.1 hf
  refine (h2 s hs).2 j f p (by rw [List.getElem?_append_left hj]; exact hf) ?_
  rwa [List.getElem?_take_of_lt hj] at hp

/-- **C73.** In particular, if the constraints force a property `Q` of the main part of the trace whatever the
challenges and the auxiliary columns are, and the main columns do not decode to a table with this property, the
probability that the prover satisfies the verifier is at most the error of the game. -/
theorem C73_main_error [Fintype F] {ta : TwoAdic F} {air : Air F Ch} {a b : Nat} (S : Setting air a b)
    {d : Domain F} (hd : Domain.new ta air = .ok d) {w : F} (hw : ta.root (a + b) = some w)
    (hc : ∀ ch, ∃ cs, PolynomialConstraints air ch cs ∧ cs.length = air.context.numTransitionConstraints) {nb : Nat}
    (hb : ∀ ch boundary, air.boundaryConstraints ch = .ok boundary → boundary.length = nb ∧
      ∀ c ∈ boundary, c.col < air.context.traceColumns ∧ c.step < 2 ^ a)
    {main : List (Nat → F)} {aux : List F → List (Nat → F)}
    (hcols : ∀ e, main.length + (aux e).length = air.context.traceColumns)
    {R m : Nat} (hR : DecodingRadius a b R m)
    {Q : List (List F) → Prop}
    (hQ : ∀ rows ch, rows.length = 2 ^ a → (∀ r ∈ rows, r.length = air.context.traceColumns) →
      Satisfies air rows air.context.traceColumns ch → Q (rows.map fun r => r.take main.length))
    (hno : ¬ DecodesTo d w air.context.proofOptions.cosetOffset a b R main Q)
    (P : List F → StarkStrategy F) (q : Nat) :
    probability ((Fin air.numRapChallenges → F) × Draws F nb air.context.numTransitionConstraints
        (air.context.traceColumns * air.context.transitionOffsets.length) a q (2 ^ (a + b)))
      (fun (e, draws) => (P (List.ofFn e)).Wins air d a b w (air.rapChallenges (List.ofFn e))
        (main ++ aux (List.ofFn e)) draws)
    ≤ soundnessError (Fintype.card F) nb air.context.numTransitionConstraints air.context.traceColumns
          air.context.transitionOffsets.length a b R m q := by
  classical
  refine (C73_rap_error S hd hw hc hb hcols hR P q).trans (le_of_eq ?_)
  rw [add_eq_right, probability_eq, div_eq_zero_iff]
  left
  rw [Nat.cast_eq_zero, Finset.card_eq_zero, Finset.filter_eq_empty_iff]
  rintro e - ⟨polys, hp, hs⟩
  obtain ⟨g, w', D⟩ := domain_new S.rows S.length S.blowup hd
  refine hno ⟨_, decodes_append hp, ?_⟩
  have := hQ _ _ (by rw [List.length_map, D.traceRoots]; simp) (by
    intro r hr
    obtain ⟨x, -, rfl⟩ := List.mem_map.1 hr
    rw [List.length_map, hp.length, List.length_append, hcols]) hs
  rw [List.map_map] at this
  convert this using 2
  funext x
  simp [List.map_take]

/-- The game without auxiliary columns, for a property that the constraints force. -/
theorem plain_error [Fintype F] {ta : TwoAdic F} {air : Air F Ch} {a b : Nat} (S : Setting air a b)
    {d : Domain F} (hd : Domain.new ta air = .ok d) {w : F} (hw : ta.root (a + b) = some w) {ch : Ch}
    {cs : List (MvPolynomial (Nat × Nat) F)} (hc : PolynomialConstraints air ch cs)
    (hcs : cs.length = air.context.numTransitionConstraints)
    {boundary : List (BoundaryConstraint F)} (hb : air.boundaryConstraints ch = .ok boundary)
    (hbc : ∀ c ∈ boundary, c.col < air.context.traceColumns ∧ c.step < 2 ^ a)
    {cols : List (Nat → F)} (hcols : cols.length = air.context.traceColumns)
    {R m : Nat} (hR : DecodingRadius a b R m) {Q : List (List F) → Prop}
    (hQ : ∀ rows, rows.length = 2 ^ a → (∀ r ∈ rows, r.length = air.context.traceColumns) →
      Satisfies air rows air.context.traceColumns ch → Q rows)
    (hno : ¬ DecodesTo d w air.context.proofOptions.cosetOffset a b R cols Q) (P : StarkStrategy F) (q : Nat) :
    probability (Draws F boundary.length air.context.numTransitionConstraints
        (air.context.traceColumns * air.context.transitionOffsets.length) a q (2 ^ (a + b)))
      (P.Wins air d a b w ch cols)
    ≤ soundnessError (Fintype.card F) boundary.length air.context.numTransitionConstraints
        air.context.traceColumns air.context.transitionOffsets.length a b R m q := by
  refine C68_stark_error S hd hw hc hcs hb hbc hcols hR ?_ P q
  rintro ⟨polys, hp, hs⟩
  obtain ⟨g, w', D⟩ := domain_new S.rows S.length S.blowup hd
  rw [hp.length, hcols] at hs
  exact hno ⟨polys, hp, hQ _ (by rw [List.length_map, D.traceRoots]; simp) (by
    intro r hr
    obtain ⟨x, -, rfl⟩ := List.mem_map.1 hr
    rw [List.length_map, hp.length, hcols]) hs⟩

omit [DecidableEq F] in
theorem cell_take {rows : List (List F)} {i c k : Nat} (h : c < k) :
    cell (rows.map fun r => r.take k) i c = cell rows i c := by
  unfold cell
  simp only [List.getD_eq_getElem?_getD, List.getElem?_map]
  cases rows[i]? with
  | none => rfl
  | some r => simp only [Option.map_some, Option.getD_some, List.getElem?_take_of_lt h]

section examples
open ExampleAirs
variable [Fintype F] {ta : TwoAdic F} {opts : ProofOptions} {air : Air F Unit} {a b : Nat} {d : Domain F} {w : F}
  {R m : Nat}

/-- **C73**, the Fibonacci AIR: unless the committed column is, up to `R` errors, a polynomial with the values of the
Fibonacci sequence on the trace domain, the prover succeeds with at most the error of the game. -/
theorem C73_fibonacci (ha : 2 ≤ a) (hb : 1 ≤ b) {pi : FibonacciPublicInputs F}
    (hair : fibonacci (2 ^ a) pi opts = .ok air) (hblow : opts.blowupFactor.toNat = 2 ^ b)
    (hoff : (opts.cosetOffset : F) ≠ 0) (hd : Domain.new ta air = .ok d) (hw : ta.root (a + b) = some w)
    (hR : DecodingRadius a b R m) (col : Nat → F)
    (hno : ¬ DecodesTo d w opts.cosetOffset a b R [col] fun rows =>
      ∀ i < 2 ^ a, rows[i]? = some [fibSeq pi.a0 pi.a1 i]) (P : StarkStrategy F) (q : Nat) :
    probability (Draws F 2 1 3 a q (2 ^ (a + b))) (P.Wins air d a b w () [col])
      ≤ soundnessError (Fintype.card F) 2 1 1 3 a b R m q := by
  have h4 : 2 ^ 2 ≤ 2 ^ a := Nat.pow_le_pow_right (by norm_num) ha
  have hfit := fibonacci_fits (by omega) pi opts hair
  have hpol := fibonacci_polynomial _ pi opts hair ()
  have hsat : ∀ rows : List (List F), rows.length = 2 ^ a → (∀ r ∈ rows, r.length = 1) →
      Satisfies air rows 1 () → ∀ i < 2 ^ a, rows[i]? = some [fibSeq pi.a0 pi.a1 i] :=
    fun rows hl hwd hs => (C54_fibonacci hair hl (by omega) hwd).1 hs
  have hsteps : ∀ c ∈ [(⟨0, 0, pi.a0⟩ : BoundaryConstraint F), ⟨0, 1, pi.a1⟩], c.col < 1 ∧ c.step < 2 ^ a := by
    intro c hc
    simp only [List.mem_cons, List.not_mem_nil, or_false] at hc
    rcases hc with rfl | rfl <;> simp only <;> omega
  obtain rfl := Outcome.ok.inj hair
  exact plain_error ⟨by omega, hb, rfl, hblow, hoff, hfit⟩ hd hw hpol rfl rfl hsteps rfl hR hsat hno P q

/-- **C73**, two columns. -/
theorem C73_fibonacci_two_columns (ha : 1 ≤ a) (hb : 1 ≤ b) {pi : FibonacciPublicInputs F}
    (hair : fibonacci2 (2 ^ a) pi opts = .ok air) (hblow : opts.blowupFactor.toNat = 2 ^ b)
    (hoff : (opts.cosetOffset : F) ≠ 0) (hd : Domain.new ta air = .ok d) (hw : ta.root (a + b) = some w)
    (hR : DecodingRadius a b R m) (col1 col2 : Nat → F)
    (hno : ¬ DecodesTo d w opts.cosetOffset a b R [col1, col2] fun rows =>
      ∀ i < 2 ^ a, rows[i]? = some [fibSeq pi.a0 pi.a1 (2 * i), fibSeq pi.a0 pi.a1 (2 * i + 1)])
    (P : StarkStrategy F) (q : Nat) :
    probability (Draws F 2 2 4 a q (2 ^ (a + b))) (P.Wins air d a b w () [col1, col2])
      ≤ soundnessError (Fintype.card F) 2 2 2 2 a b R m q := by
  have h4 : 2 ^ 1 ≤ 2 ^ a := Nat.pow_le_pow_right (by norm_num) ha
  have hfit := fibonacci2_fits (by omega) pi opts hair
  have hpol := fibonacci2_polynomial _ pi opts hair ()
  have hsat : ∀ rows : List (List F), rows.length = 2 ^ a → (∀ r ∈ rows, r.length = 2) →
      Satisfies air rows 2 () →
      ∀ i < 2 ^ a, rows[i]? = some [fibSeq pi.a0 pi.a1 (2 * i), fibSeq pi.a0 pi.a1 (2 * i + 1)] :=
    fun rows hl hwd hs => (C54_fibonacci_two_columns hair hl (by omega) hwd).1 hs
  have hsteps : ∀ c ∈ [(⟨0, 0, pi.a0⟩ : BoundaryConstraint F), ⟨1, 0, pi.a1⟩], c.col < 2 ∧ c.step < 2 ^ a := by
    intro c hc
    simp only [List.mem_cons, List.not_mem_nil, or_false] at hc
    rcases hc with rfl | rfl <;> simp only <;> omega
  obtain rfl := Outcome.ok.inj hair
  exact plain_error ⟨ha, hb, rfl, hblow, hoff, hfit⟩ hd hw hpol rfl rfl hsteps rfl hR hsat hno P q

/-- **C73**, repeated squaring. -/
theorem C73_quadratic (ha : 1 ≤ a) (hb : 1 ≤ b) {a0 : F}
    (hair : quadratic (2 ^ a) a0 opts = .ok air) (hblow : opts.blowupFactor.toNat = 2 ^ b)
    (hoff : (opts.cosetOffset : F) ≠ 0) (hd : Domain.new ta air = .ok d) (hw : ta.root (a + b) = some w)
    (hR : DecodingRadius a b R m) (col : Nat → F)
    (hno : ¬ DecodesTo d w opts.cosetOffset a b R [col] fun rows =>
      ∀ i < 2 ^ a, rows[i]? = some [squares a0 i]) (P : StarkStrategy F) (q : Nat) :
    probability (Draws F 1 1 2 a q (2 ^ (a + b))) (P.Wins air d a b w () [col])
      ≤ soundnessError (Fintype.card F) 1 1 1 2 a b R m q := by
  have h4 : 2 ^ 1 ≤ 2 ^ a := Nat.pow_le_pow_right (by norm_num) ha
  have hfit := quadratic_fits (by omega) a0 opts hair
  have hpol := quadratic_polynomial _ a0 opts hair ()
  have hsat : ∀ rows : List (List F), rows.length = 2 ^ a → (∀ r ∈ rows, r.length = 1) →
      Satisfies air rows 1 () → ∀ i < 2 ^ a, rows[i]? = some [squares a0 i] :=
    fun rows hl hwd hs => (C54_quadratic hair hl (by omega) hwd).1 hs
  have hsteps : ∀ c ∈ [(⟨0, 0, a0⟩ : BoundaryConstraint F)], c.col < 1 ∧ c.step < 2 ^ a := by
    intro c hc
    simp only [List.mem_cons, List.not_mem_nil, or_false] at hc
    rcases hc with rfl
    simp only
    omega
  obtain rfl := Outcome.ok.inj hair
  exact plain_error ⟨ha, hb, rfl, hblow, hoff, hfit⟩ hd hw hpol rfl rfl hsteps rfl hR hsat hno P q

/-- **C73**, the AIR of two independent columns: bits in the first one and the Fibonacci terms from 1, 1 in the second. -/
theorem C73_dummy (ha : 2 ≤ a) (hb : 1 ≤ b)
    (hair : dummy (2 ^ a) () opts = .ok air) (hblow : opts.blowupFactor.toNat = 2 ^ b)
    (hoff : (opts.cosetOffset : F) ≠ 0) (hd : Domain.new ta air = .ok d) (hw : ta.root (a + b) = some w)
    (hR : DecodingRadius a b R m) (col1 col2 : Nat → F)
    (hno : ¬ DecodesTo d w opts.cosetOffset a b R [col1, col2] fun rows =>
      ∀ i < 2 ^ a, ∃ bit : F, (bit = 0 ∨ bit = 1) ∧ rows[i]? = some [bit, fibSeq 1 1 i]) (P : StarkStrategy F) (q : Nat) :
    probability (Draws F 2 2 6 a q (2 ^ (a + b))) (P.Wins air d a b w () [col1, col2])
      ≤ soundnessError (Fintype.card F) 2 2 2 3 a b R m q := by
  have h4 : 2 ^ 2 ≤ 2 ^ a := Nat.pow_le_pow_right (by norm_num) ha
  have hfit := dummy_fits (by omega) () opts hair
  have hpol := dummy_polynomial _ () opts hair ()
  have hsat : ∀ rows : List (List F), rows.length = 2 ^ a → (∀ r ∈ rows, r.length = 2) →
      Satisfies air rows 2 () → ∀ i < 2 ^ a, ∃ bit : F, (bit = 0 ∨ bit = 1) ∧ rows[i]? = some [bit, fibSeq 1 1 i] :=
    fun rows hl hwd hs => (C54_dummy hair hl (by omega) hwd).1 hs
  have hsteps : ∀ c ∈ [(⟨1, 0, 1⟩ : BoundaryConstraint F), ⟨1, 1, 1⟩], c.col < 2 ∧ c.step < 2 ^ a := by
    intro c hc
    simp only [List.mem_cons, List.not_mem_nil, or_false] at hc
    rcases hc with rfl | rfl <;> simp only <;> omega
  obtain rfl := Outcome.ok.inj hair
  exact plain_error ⟨by omega, hb, rfl, hblow, hoff, hfit⟩ hd hw hpol rfl rfl hsteps rfl hR hsat hno P q

/-- **C73**, the Fibonacci RAP: its first column, committed before the challenge, holds the Fibonacci terms from 1, 1
in the first `steps` rows, whatever the prover does with the accumulator. (About the second column nothing is forced,
`C56_permutation_not_enforced`.) -/
theorem C73_fibonacci_rap {air : Air F F} (ha : 2 ≤ a) (hb : 1 ≤ b) {pi : FibonacciRAPPublicInputs F}
    (hs : 3 ≤ pi.steps) (hs' : pi.steps ≤ 2 ^ a)
    (hair : fibonacciRap (2 ^ a) pi opts = .ok air) (hblow : opts.blowupFactor.toNat = 2 ^ b)
    (hoff : (opts.cosetOffset : F) ≠ 0) (hd : Domain.new ta air = .ok d) (hw : ta.root (a + b) = some w)
    (hR : DecodingRadius a b R m) (col1 col2 : Nat → F)
    (hno : ¬ DecodesTo d w opts.cosetOffset a b R [col1, col2] fun rows =>
      ∀ i < pi.steps, cell rows i 0 = fibSeq 1 1 i)
    (acc : List F → Nat → F) (P : List F → StarkStrategy F) (q : Nat) :
    probability ((Fin 1 → F) × Draws F 3 2 9 a q (2 ^ (a + b)))
        (fun (e, draws) => (P (List.ofFn e)).Wins air d a b w (e 0) ([col1, col2, acc (List.ofFn e)]) draws)
      ≤ soundnessError (Fintype.card F) 3 2 3 3 a b R m q := by
  have h4 : 2 ^ 2 ≤ 2 ^ a := Nat.pow_le_pow_right (by norm_num) ha
  have hfit := fibonacciRap_fits pi (by omega) hs opts hair
  have hpol := fibonacciRap_polynomial _ pi opts hair
  have hsat : ∀ (rows : List (List F)) γ, rows.length = 2 ^ a → (∀ r ∈ rows, r.length = 3) →
      Satisfies air rows 3 γ → ∀ i < pi.steps, cell (rows.map fun r => r.take 2) i 0 = fibSeq 1 1 i := by
    intro rows γ hl hwd hsat
    obtain ⟨⟨h0, h1, hrec⟩, -⟩ := (C56_satisfies_iff hair hl (by omega) hs' hwd γ).1 hsat
    have key : ∀ i, i + 1 < pi.steps → cell rows i 0 = fibSeq 1 1 i ∧ cell rows (i + 1) 0 = fibSeq 1 1 (i + 1) := by
      intro i
      induction i with
      | zero => exact fun _ => ⟨h0, h1⟩
      | succ i ih =>
        intro hi
        obtain ⟨e0, e1⟩ := ih (by omega)
        exact ⟨e1, by rw [hrec i hi, e0, e1]; rfl⟩
    intro i hi
    rw [cell_take (by norm_num)]
    rcases i with _ | i
    · exact h0
    · exact (key i hi).2
  have hsteps : ∀ c ∈ [(⟨0, 0, 1⟩ : BoundaryConstraint F), ⟨0, 1, 1⟩, ⟨2, 0, 1⟩], c.col < 3 ∧ c.step < 2 ^ a := by
    intro c hc
    simp only [List.mem_cons, List.not_mem_nil, or_false] at hc
    rcases hc with rfl | rfl | rfl <;> simp only <;> omega
  unfold fibonacciRap at hair
  simp only [Outcome.bind_eq_ok, checkedSub_ok, Outcome.pure_eq, Outcome.ok.injEq] at hair
  obtain ⟨e, -, e', -, rfl⟩ := hair
  have := C73_main_error (air := _) ⟨by omega, hb, rfl, hblow, hoff, hfit⟩ hd hw (fun γ => ⟨_, hpol γ, rfl⟩) (nb := 3)
    (by
      intro ch boundary h
      obtain rfl := Outcome.ok.inj h
      exact ⟨rfl, hsteps⟩) (main := [col1, col2]) (aux := fun e => [acc e]) (fun _ => rfl) hR hsat hno P q
  refine le_trans (probability_mono ?_) this
  rintro ⟨e, draws⟩ h
  have he : (List.ofFn e).getD 0 0 = e 0 := by simp
  simp only [he]
  exact h

end examples

section cairo
open CairoAir

/-- **C73**, the Cairo AIR: the main columns, committed before the challenges, hold a table that starts and ends at
the public `pc` and `ap` and whose selected rows are steps of the machine, whatever the prover does with the auxiliary
columns. (Claims need more than this to be true, `C65_false_claim_accepted`.) -/
theorem C73_cairo {ta : TwoAdic FE} {opts : ProofOptions} {a b : Nat} {d : Domain FE} {w : FE} {R m : Nat}
    (ha : 1 ≤ a) (hb : 1 ≤ b) {pi : PublicInputs} (hsteps : pi.numSteps ≤ 2 ^ a)
    (hblow : opts.blowupFactor.toNat = 2 ^ b) (hoff : (opts.cosetOffset : FE) ≠ 0)
    (hd : Domain.new ta (CairoAir.air (2 ^ a) pi opts) = .ok d) (hw : ta.root (a + b) = some w)
    (hR : DecodingRadius a b R m) (main : List (Nat → FE))
    (hmain : main.length = traceColumns (hasRcBuiltin pi) - 18)
    (hno : ¬ DecodesTo d w opts.cosetOffset a b R main (SelectedRun pi))
    (aux : List FE → List (Nat → FE)) (haux : ∀ e, (aux e).length = 18) (P : List FE → StarkStrategy FE) (q : Nat) :
    probability ((Fin 3 → FE) × Draws FE 8 (numTransitionConstraints (hasRcBuiltin pi))
          (traceColumns (hasRcBuiltin pi) * 2) a q (2 ^ (a + b)))
        (fun (e, draws) => (P (List.ofFn e)).Wins (CairoAir.air (2 ^ a) pi opts) d a b w ⟨e 0, e 1, e 2⟩
          (main ++ aux (List.ofFn e)) draws)
      ≤ soundnessError Verif.P 8 (numTransitionConstraints (hasRcBuiltin pi)) (traceColumns (hasRcBuiltin pi)) 2
          a b R m q := by
  have h2 : 2 ^ 1 ≤ 2 ^ a := Nat.pow_le_pow_right (by norm_num) ha
  have hcols : 52 ≤ traceColumns (hasRcBuiltin pi) := by cases hasRcBuiltin pi <;> simp [traceColumns]
  have hboff : traceColumns (hasRcBuiltin pi) + builtinOffset (hasRcBuiltin pi) = 61 := by
    cases hasRcBuiltin pi <;> simp [traceColumns, builtinOffset, BUILTIN_OFFSET]
  have := C73_main_error (air := CairoAir.air (2 ^ a) pi opts)
    ⟨ha, hb, rfl, hblow, hoff, air_fits (by omega) pi opts⟩ hd hw
    (fun ch => ⟨_, air_polynomial _ pi opts ch, by
      have := (List.forall₂_iff_get.1 (constraintPolys_degrees (hasRcBuiltin pi) ch)).1
      rw [this]
      exact (air_fits (by omega : 2 ≤ 2 ^ a) pi opts).degrees_len⟩) (nb := 8)
    (by
      intro ch boundary h
      obtain ⟨h1, h2, lo, hi, h3, h4, h5, rfl⟩ := boundaryConstraints_ok h
      refine ⟨rfl, ?_⟩
      intro c hc
      change c.col < traceColumns (hasRcBuiltin pi) ∧ _
      simp only [List.mem_cons, List.not_mem_nil, or_false] at hc
      rcases hc with rfl | rfl | rfl | rfl | rfl | rfl | rfl | rfl <;>
        simp only [MEM_A_TRACE_OFFSET, MEM_P_TRACE_OFFSET, PERMUTATION_ARGUMENT_COL_0,
          PERMUTATION_ARGUMENT_RANGE_CHECK_COL_1, RANGE_CHECK_COL_1, RANGE_CHECK_COL_3] <;>
        constructor <;> omega)
    (main := main) (aux := aux) (fun e => by
      rw [hmain, haux]
      exact Nat.sub_add_cancel (by omega)) hR (Q := SelectedRun pi) (by
      intro rows ch hl hrect hsat
      have hacc : Accepted pi opts rows ch := ⟨hrect, by omega, by rw [hl]; exact hsat⟩
      have hc : ∀ i c, c < 34 → cell (rows.map fun r => r.take main.length) i c = cell rows i c :=
        fun i c hc => cell_take (by omega)
      have hregs : ∀ i, regsAt (rows.map fun r => r.take main.length) i = regsAt rows i := by
        intro i
        simp only [regsAt]
        rw [hc _ _ (by decide), hc _ _ (by decide), hc _ _ (by decide)]
      have hax : ∀ k, access (rows.map fun r => r.take main.length) k = access rows k := by
        intro k
        have hk : k % 4 < 4 := Nat.mod_lt _ (by decide)
        simp only [access, FRAME_PC, FRAME_INST]
        rw [hc _ _ (by omega), hc _ _ (by omega)]
      have hof : ∀ k, offset (rows.map fun r => r.take main.length) k = offset rows k := by
        intro k
        have hk : k % 3 < 3 := Nat.mod_lt _ (by decide)
        simp only [offset, OFF_DST]
        rw [hc _ _ (by omega)]
      obtain ⟨-, h1, h2, h3, h4⟩ := C32_boundary_partial hacc
      refine ⟨by rw [hregs]; exact ⟨h1, h2⟩, by rw [hregs]; exact ⟨h3, h4⟩, ?_⟩
      intro m i hi hsel ho hm hlegal
      rw [List.length_map] at hi
      rw [hc _ _ (by decide)] at hsel
      rw [hregs] at hlegal
      rw [hregs, hregs]
      refine C26_selected_steps_partial hacc m i hi hsel ?_ ?_ hlegal
      · intro k hk
        rw [← hof]
        exact ho k hk
      · intro k hk
        rw [← hax]
        exact hm k hk) hno P q
  have hcard : Fintype.card FE = Verif.P := ZMod.card _
  rw [hcard] at this
  refine le_trans (probability_mono ?_) this
  rintro ⟨e, draws⟩ h
  exact h

end cairo

/-- Columns of zeros decode to zeros only. -/
theorem zeros_not_decode {ta : TwoAdic F} {air : Air F Ch} {a b : Nat} (ha : 1 ≤ a) (hn : air.traceLength = 2 ^ a)
    (hb : air.context.proofOptions.blowupFactor.toNat = 2 ^ b)
    (hoff : (air.context.proofOptions.cosetOffset : F) ≠ 0) {d : Domain F} (hd : Domain.new ta air = .ok d) {w : F}
    (hw : ta.root (a + b) = some w) {R : Nat} (hR : 2 * R + 2 ^ a + 1 ≤ 2 ^ (a + b)) (m : Nat)
    {Q : List (List F) → Prop} (hQ : ¬ Q (List.replicate (2 ^ a) (List.replicate m 0))) :
    ¬ DecodesTo d w air.context.proofOptions.cosetOffset a b R (List.replicate m fun _ => 0) Q := by
  rintro ⟨polys, hp, hq⟩
  obtain ⟨g, w', D⟩ := domain_new ha hn hb hd
  obtain rfl : w = w' := Option.some.inj (hw.symm.trans D.hw)
  have hzero : Decodes (2 ^ (a + b)) (fun s => w ^ s * (air.context.proofOptions.cosetOffset : F)) (2 ^ a + 1) R
      (List.replicate m fun _ => 0) (List.replicate m 0) := by
    refine ⟨by simp, fun p hp => ?_, Finset.range (2 ^ (a + b)), by simp, fun s hs => ⟨Finset.mem_range.mp hs, ?_⟩⟩
    · rw [List.eq_of_mem_replicate hp, degree_zero]
      exact WithBot.bot_lt_coe _
    · intro j f p hf hp
      rw [List.eq_of_mem_replicate (List.mem_of_getElem? hf), List.eq_of_mem_replicate (List.mem_of_getElem? hp),
        eval_zero]
  obtain rfl := decodes_unique (domain_injOn D hoff) (by omega) (by have : 0 < 2 ^ a := by positivity
                                                                    omega) hp hzero
  apply hQ
  convert hq using 1
  rw [D.traceRoots, List.map_map]
  symm
  refine List.eq_replicate_iff.2 ⟨by simp, fun r hr => ?_⟩
  obtain ⟨i, -, rfl⟩ := List.mem_map.1 hr
  simp

open ExampleAirs in
/-- The hypotheses of the theorems about the example AIRs are met over the field with 17 elements, with four rows
extended to eight and `R = 1`, by columns of zeros. -/
example : ∃ (air air' : Air (ZMod 17) Unit) (airR : Air (ZMod 17) (ZMod 17)) (d d' dR : Domain (ZMod 17)) (w : ZMod 17),
    roots17.root (2 + 1) = some w ∧ DecodingRadius 2 1 1 2 ∧
    fibonacci (2 ^ 2) ⟨1, 1⟩ ⟨2, 3, 3, 1⟩ = .ok air ∧ Domain.new roots17 air = .ok d ∧
    ¬ DecodesTo d w 3 2 1 1 [fun _ => 0] (fun rows => ∀ i < 2 ^ 2, rows[i]? = some [fibSeq 1 1 i]) ∧
    quadratic (2 ^ 2) 2 ⟨2, 3, 3, 1⟩ = .ok air' ∧ Domain.new roots17 air' = .ok d' ∧
    ¬ DecodesTo d' w 3 2 1 1 [fun _ => 0] (fun rows => ∀ i < 2 ^ 2, rows[i]? = some [squares 2 i]) ∧
    fibonacciRap (2 ^ 2) ⟨3, 1, 1⟩ ⟨2, 3, 3, 1⟩ = .ok airR ∧ Domain.new roots17 airR = .ok dR ∧
    ¬ DecodesTo dR w 3 2 1 1 [fun _ => 0, fun _ => 0] (fun rows => ∀ i < 3, cell rows i 0 = fibSeq 1 1 i) := by
  obtain ⟨w, hw⟩ := Option.isSome_iff_exists.mp (roots17.defined (2 + 1) (by norm_num) (by decide))
  have h3 : ((3 : Nat) : ZMod 17) ≠ 0 := by decide
  obtain ⟨air, hair⟩ : ∃ air : Air (ZMod 17) Unit, fibonacci (2 ^ 2) ⟨1, 1⟩ ⟨2, 3, 3, 1⟩ = .ok air := ⟨_, rfl⟩
  obtain ⟨air', hair'⟩ : ∃ air : Air (ZMod 17) Unit, quadratic (2 ^ 2) 2 ⟨2, 3, 3, 1⟩ = .ok air := ⟨_, rfl⟩
  obtain ⟨airR, hairR⟩ : ∃ air : Air (ZMod 17) (ZMod 17), fibonacciRap (2 ^ 2) ⟨3, 1, 1⟩ ⟨2, 3, 3, 1⟩ = .ok air :=
    ⟨_, rfl⟩
  have h1 : air.traceLength = 2 ^ 2 ∧ air.context.proofOptions = ⟨2, 3, 3, 1⟩ := by
    obtain rfl := Outcome.ok.inj hair; exact ⟨rfl, rfl⟩
  have h2 : air'.traceLength = 2 ^ 2 ∧ air'.context.proofOptions = ⟨2, 3, 3, 1⟩ := by
    obtain rfl := Outcome.ok.inj hair'; exact ⟨rfl, rfl⟩
  have h4 : airR.traceLength = 2 ^ 2 ∧ airR.context.proofOptions = ⟨2, 3, 3, 1⟩ := by
    obtain rfl := Outcome.ok.inj hairR; exact ⟨rfl, rfl⟩
  obtain ⟨d, hd⟩ := domain_exists (ta := roots17) (air := air) (a := 2) (b := 1) (by norm_num) h1.1
    (by rw [h1.2]; rfl) (by norm_num) (by decide)
  obtain ⟨d', hd'⟩ := domain_exists (ta := roots17) (air := air') (a := 2) (b := 1) (by norm_num) h2.1
    (by rw [h2.2]; rfl) (by norm_num) (by decide)
  obtain ⟨dR, hdR⟩ := domain_exists (ta := roots17) (air := airR) (a := 2) (b := 1) (by norm_num) h4.1
    (by rw [h4.2]; rfl) (by norm_num) (by decide)
  refine ⟨air, air', airR, d, d', dR, w, hw, radius_third (by norm_num), hair, hd, ?_, hair', hd', ?_, hairR, hdR, ?_⟩
  · have := zeros_not_decode (air := air) (a := 2) (b := 1) (by norm_num) h1.1 (by rw [h1.2]; rfl)
      (by rw [h1.2]; exact h3) hd hw (R := 1) (by norm_num) 1
      (Q := fun rows => ∀ i < 2 ^ 2, rows[i]? = some [fibSeq 1 1 i])
      (fun h => absurd (h 0 (by norm_num)) (by decide))
    rw [h1.2] at this
    exact this
  · have := zeros_not_decode (air := air') (a := 2) (b := 1) (by norm_num) h2.1 (by rw [h2.2]; rfl)
      (by rw [h2.2]; exact h3) hd' hw (R := 1) (by norm_num) 1
      (Q := fun rows => ∀ i < 2 ^ 2, rows[i]? = some [squares 2 i])
      (fun h => absurd (h 0 (by norm_num)) (by decide))
    rw [h2.2] at this
    exact this
  · have := zeros_not_decode (air := airR) (a := 2) (b := 1) (by norm_num) h4.1 (by rw [h4.2]; rfl)
      (by rw [h4.2]; exact h3) hdR hw (R := 1) (by norm_num) 2
      (Q := fun rows => ∀ i < 3, cell rows i 0 = fibSeq 1 1 i)
      (fun h => absurd (h 0 (by norm_num)) (by decide))
    rw [h4.2] at this
    exact this

open ExampleAirs in
/-- The hypotheses of `C73_fibonacci_two_columns` are met in the same way. -/
example : ∃ (air : Air (ZMod 17) Unit) (d : Domain (ZMod 17)) (w : ZMod 17),
    roots17.root (2 + 1) = some w ∧ fibonacci2 (2 ^ 2) ⟨1, 1⟩ ⟨2, 3, 3, 1⟩ = .ok air ∧ Domain.new roots17 air = .ok d ∧
    ¬ DecodesTo d w 3 2 1 1 [fun _ => 0, fun _ => 0]
      (fun rows => ∀ i < 2 ^ 2, rows[i]? = some [fibSeq 1 1 (2 * i), fibSeq 1 1 (2 * i + 1)]) := by
  obtain ⟨w, hw⟩ := Option.isSome_iff_exists.mp (roots17.defined (2 + 1) (by norm_num) (by decide))
  obtain ⟨air, hair⟩ : ∃ air : Air (ZMod 17) Unit, fibonacci2 (2 ^ 2) ⟨1, 1⟩ ⟨2, 3, 3, 1⟩ = .ok air := ⟨_, rfl⟩
  have h1 : air.traceLength = 2 ^ 2 ∧ air.context.proofOptions = ⟨2, 3, 3, 1⟩ := by
    obtain rfl := Outcome.ok.inj hair; exact ⟨rfl, rfl⟩
  obtain ⟨d, hd⟩ := domain_exists (ta := roots17) (air := air) (a := 2) (b := 1) (by norm_num) h1.1
    (by rw [h1.2]; rfl) (by norm_num) (by decide)
  refine ⟨air, d, w, hw, hair, hd, ?_⟩
  have := zeros_not_decode (air := air) (a := 2) (b := 1) (by norm_num) h1.1 (by rw [h1.2]; rfl)
    (by rw [h1.2]; decide) hd hw (R := 1) (by norm_num) 2
    (Q := fun rows => ∀ i < 2 ^ 2, rows[i]? = some [fibSeq 1 1 (2 * i), fibSeq 1 1 (2 * i + 1)])
    (fun h => absurd (h 0 (by norm_num)) (by decide))
  rw [h1.2] at this
  exact this

open ExampleAirs in
/-- The hypotheses of `C73_dummy` are met in the same way. -/
example : ∃ (air : Air (ZMod 17) Unit) (d : Domain (ZMod 17)) (w : ZMod 17),
    roots17.root (2 + 1) = some w ∧ dummy (2 ^ 2) () ⟨2, 3, 3, 1⟩ = .ok air ∧ Domain.new roots17 air = .ok d ∧
    ¬ DecodesTo d w 3 2 1 1 [fun _ => 0, fun _ => 0]
      (fun rows => ∀ i < 2 ^ 2, ∃ bit : ZMod 17, (bit = 0 ∨ bit = 1) ∧ rows[i]? = some [bit, fibSeq 1 1 i]) := by
  obtain ⟨w, hw⟩ := Option.isSome_iff_exists.mp (roots17.defined (2 + 1) (by norm_num) (by decide))
  obtain ⟨air, hair⟩ : ∃ air : Air (ZMod 17) Unit, dummy (2 ^ 2) () ⟨2, 3, 3, 1⟩ = .ok air := ⟨_, rfl⟩
  have h1 : air.traceLength = 2 ^ 2 ∧ air.context.proofOptions = ⟨2, 3, 3, 1⟩ := by
    obtain rfl := Outcome.ok.inj hair; exact ⟨rfl, rfl⟩
  obtain ⟨d, hd⟩ := domain_exists (ta := roots17) (air := air) (a := 2) (b := 1) (by norm_num) h1.1
    (by rw [h1.2]; rfl) (by norm_num) (by decide)
  refine ⟨air, d, w, hw, hair, hd, ?_⟩
  have := zeros_not_decode (air := air) (a := 2) (b := 1) (by norm_num) h1.1 (by rw [h1.2]; rfl)
    (by rw [h1.2]; decide) hd hw (R := 1) (by norm_num) 2
    (Q := fun rows => ∀ i < 2 ^ 2, ∃ bit : ZMod 17, (bit = 0 ∨ bit = 1) ∧ rows[i]? = some [bit, fibSeq 1 1 i])
    (fun h => absurd (h 0 (by norm_num)) (by decide))
  rw [h1.2] at this
  exact this

/-- The hypotheses of `C73_cairo` are met for the public inputs of `simple_program` by columns of zeros: eight rows
extended to 32, `R = 7`. -/
example : ∃ (d : Domain FE) (w : FE), starkRoots.root (3 + 2) = some w ∧
    Domain.new starkRoots (CairoAir.air (2 ^ 3) Examples.main0.2 ⟨4, 3, 3, 1⟩) = .ok d ∧
    Examples.main0.2.numSteps ≤ 2 ^ 3 ∧ 3 * 7 + 2 ^ 3 + 1 ≤ 2 ^ (3 + 2) ∧
    (List.replicate 34 fun _ : Nat => (0 : FE)).length
      = CairoAir.traceColumns (CairoAir.hasRcBuiltin Examples.main0.2) - 18 ∧
    ¬ DecodesTo d w ((3 : Nat) : FE) 3 2 7 (List.replicate 34 fun _ => 0) (SelectedRun Examples.main0.2) := by
  obtain ⟨w, hw⟩ := Option.isSome_iff_exists.mp (starkRoots.defined (3 + 2) (by norm_num) (by decide))
  obtain ⟨d, hd⟩ := domain_exists (ta := starkRoots) (air := CairoAir.air (2 ^ 3) Examples.main0.2 ⟨4, 3, 3, 1⟩)
    (a := 3) (b := 2) (by norm_num) rfl rfl (by norm_num) (by decide)
  refine ⟨d, w, hw, hd, by decide +kernel, by norm_num, by decide +kernel, ?_⟩
  refine zeros_not_decode (air := CairoAir.air (2 ^ 3) Examples.main0.2 ⟨4, 3, 3, 1⟩) (a := 3) (b := 2) (by norm_num)
    rfl rfl (by change ((3 : Nat) : FE) ≠ 0; decide +kernel) hd hw (by norm_num) 34 ?_
  intro h
  have h1 := h.first.1
  have h2 : Examples.main0.2.pcInit = 1 := by decide +kernel
  rw [h2] at h1
  exact absurd h1 (by decide +kernel)

end Verif.Props
