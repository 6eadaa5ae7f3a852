import Verif.Props.Validate
import Verif.Model.ExampleAirs

/-!
# C35: when trace validation answers
-/

namespace Verif.Props
open TraceTable Spec ExampleAirs
variable {F Ch : Type} [DecidableEq F]

/-- The AIR can be evaluated on the trace: it gives boundary constraints, and evaluations for the frame of every
row. -/
def Evaluable (air : Air F Ch) (rows : List (List F)) (w : Nat) (ch : Ch) : Prop :=
  (∃ cs, air.boundaryConstraints ch = .ok cs) ∧
    ∀ i < rows.length, ∃ evals, air.computeTransition (frameAt rows w air.context.transitionOffsets i) ch = .ok evals

/-- **C35**, answers: for an AIR whose declarations fit together, validation of a rectangular table returns an answer
exactly when the AIR can be evaluated on it, and the answer says whether the table satisfies the AIR; otherwise it
panics. So it returns `false` exactly for the tables on which the AIR can be evaluated and which do not satisfy it. -/
theorem C35_validate_answers [Zero F] (air : Air F Ch) (rows : List (List F)) (w : Nat)
    (hrect : ∀ r ∈ rows, r.length = w) (ch : Ch) (D : Declared air rows.length w ch) :
    (validateTable air (ofRows rows w) ch = .ok false ↔ Evaluable air rows w ch ∧ ¬ Satisfies air rows w ch) ∧
      (validateTable air (ofRows rows w) ch = .panic ↔ ¬ Evaluable air rows w ch) := by
  have hans : (∃ b, validateTable air (ofRows rows w) ch = .ok b) ↔ Evaluable air rows w ch := by
    unfold validateTable
    rw [nRows_ofRows rows w D.width_pos hrect, exemptionSteps_ok D.exemptions_len D.exemptions_le]
    simp only [Outcome.bind_eq_ok, Outcome.pure_eq, Outcome.ok.injEq]
    constructor
    · rintro ⟨r, cs, hcs, b, hb, limits, rfl, s, hs, -⟩
      refine ⟨⟨cs, hcs⟩, fun i hi => ?_⟩
      have hmem : i ∈ List.range rows.length := List.mem_range.2 hi
      generalize List.range rows.length = steps at hs hmem
      induction steps generalizing s with
      | nil => cases hmem
      | cons j t ih =>
        rw [validateSteps, readFromTrace_ofRows rows w D.width_pos hrect D.rows_pos] at hs
        simp only [Outcome.bind_ok, Outcome.bind_eq_ok, Outcome.pure_eq, Outcome.ok.injEq] at hs
        obtain ⟨evals, he, b1, -, b2, hb2, -⟩ := hs
        rcases List.mem_cons.1 hmem with rfl | h
        · exact ⟨evals, he⟩
        · exact ih b2 hb2 h
    · rintro ⟨⟨cs, hcs⟩, ht⟩
      obtain ⟨b, hb', -⟩ := validateBoundary_iff rows w hrect cs (D.boundary_in cs hcs)
      obtain ⟨s, hs⟩ := validateSteps_ok air rows w hrect ch D (List.range rows.length) fun i hi =>
        ht i (List.mem_range.1 hi)
      exact ⟨_, cs, hcs, b, hb', _, rfl, s, hs, rfl⟩
  have htrue := C35_validate_table air rows w hrect ch D
  cases h : validateTable air (ofRows rows w) ch with
  | ok b =>
    rw [h] at hans htrue
    have he : Evaluable air rows w ch := hans.1 ⟨b, rfl⟩
    cases b <;> simp_all
  | err e => exact e.elim
  | panic =>
    rw [h] at hans htrue
    simp_all

/-- **C35**, exemptions: with a constraint that is exempted from more rows than there are, validation panics, whatever
the table and the rest of the AIR are (in debug builds, where the subtraction is checked). -/
theorem C35_too_many_exemptions [Zero F] (air : Air F Ch) (table : TraceTable F) (ch : Ch)
    (h : ∃ x ∈ air.context.transitionExemptions.take air.context.numTransitionConstraints, table.nRows < x) :
    validateTable air table ch = .panic := by
  have hp : ∀ l : List Nat, (∃ x ∈ l, table.nRows < x) →
      (mapOutcome (fun e => if e ≤ table.nRows then .ok (table.nRows - e) else .panic) l : Outcome Empty _) = .panic := by
    intro l
    induction l with
    | nil => simp
    | cons a t ih =>
      rintro ⟨x, hx, hlt⟩
      rw [mapOutcome]
      by_cases ha : a ≤ table.nRows
      · rcases List.mem_cons.1 hx with rfl | hx
        · omega
        · rw [if_pos ha, Outcome.bind_ok, ih ⟨x, hx, hlt⟩]
          rfl
      · rw [if_neg ha]
        rfl
  have h2 : ∀ {α β : Type} (x : Outcome Empty α) (f : α → Outcome Empty β), (∀ a, f a = .panic) → x >>= f = .panic := by
    intro α β x f hf
    cases x with
    | ok a => exact hf a
    | err e => exact e.elim
    | panic => rfl
  unfold validateTable exemptionSteps
  refine h2 _ _ fun cs => h2 _ _ fun b => ?_
  rw [hp _ h]
  rfl

/-- The table of a Fibonacci sequence is answered `true`, the one with a wrong value `false`, and the one without rows,
which has fewer rows than the exempted one, makes the call panic. The AIR can be evaluated on the first two. -/
example : ∃ air : Air ℚ Unit, fibonacci2 4 (⟨1, 1⟩ : FibonacciPublicInputs ℚ) ⟨4, 3, 3, 0⟩ = .ok air ∧
    Declared air 4 2 () ∧ Evaluable air [[1, 1], [2, 3], [5, 8], [13, 21]] 2 () ∧
    Evaluable air [[1, 1], [2, 3], [5, 9], [13, 21]] 2 () ∧
    validateTable air (ofRows [[1, 1], [2, 3], [5, 8], [13, 21]] 2) () = .ok true ∧
    validateTable air (ofRows [[1, 1], [2, 3], [5, 9], [13, 21]] 2) () = .ok false ∧
    validateTable air (ofRows [] 2) () = .panic := by
  refine ⟨_, rfl, ⟨by decide, by decide, rfl, by decide, ?_, ?_⟩, ⟨⟨_, rfl⟩, ?_⟩, ⟨⟨_, rfl⟩, ?_⟩, by decide +kernel, by decide +kernel,
    C35_too_many_exemptions _ _ _ ⟨1, by decide, by decide⟩⟩
  · intro frame evals h
    simp only [fibonacci2Transition, Outcome.bind_eq_ok, Outcome.pure_eq, Outcome.ok.injEq] at h
    obtain ⟨_, -, _, -, _, -, _, -, _, -, _, -, rfl⟩ := h
    rfl
  · rintro cs h c hc
    cases h
    simp only [List.mem_cons, List.not_mem_nil, or_false] at hc
    rcases hc with rfl | rfl <;> decide
  all_goals
    intro i hi
    have : i = 0 ∨ i = 1 ∨ i = 2 ∨ i = 3 := by simp only [List.length_cons, List.length_nil] at hi; omega
    rcases this with rfl | rfl | rfl | rfl <;> exact ⟨_, rfl⟩

end Verif.Props
