import Verif.Lemmas.Validate
import Verif.Lemmas.CairoDeclared
import Verif.Examples.Traces

/-!
# Trace validation: C35
-/

namespace Verif.Props
open TraceTable Spec
variable {F Ch : Type} [DecidableEq F]

/-- **C35**, on tables: for an AIR whose declarations fit together, validation of a rectangular
table returns `true` exactly when the table satisfies the AIR. -/
theorem C35_validate_table [Zero F] (air : Air F Ch) (rows : List (List F)) (w : Nat)
    (hrect : ∀ r ∈ rows, r.length = w) (ch : Ch) (D : Declared air rows.length w ch) :
    validateTable air (ofRows rows w) ch = .ok true ↔ Satisfies air rows w ch := by
  unfold validateTable
  rw [nRows_ofRows rows w D.width_pos hrect, exemptionSteps_ok D.exemptions_len D.exemptions_le]
  simp only [Outcome.bind_eq_ok, Outcome.pure_eq, Outcome.ok.injEq]
  constructor
  · rintro ⟨cs, hcs, b, hb, limits, rfl, s, hs, hbs⟩
    obtain ⟨b', hb', hiff⟩ := validateBoundary_iff rows w hrect cs (D.boundary_in cs hcs)
    rw [hb] at hb'
    cases hb'
    rw [Bool.and_eq_true] at hbs
    refine ⟨⟨cs, hcs, hiff.1 hbs.1⟩, fun i hi => ?_⟩
    exact (validateSteps_iff air rows w hrect ch D _ s hs).1 hbs.2 i (List.mem_range.2 hi)
  · rintro ⟨⟨cs, hcs, hb⟩, ht⟩
    obtain ⟨b, hb', hiff⟩ := validateBoundary_iff rows w hrect cs (D.boundary_in cs hcs)
    obtain ⟨s, hs⟩ := validateSteps_ok air rows w hrect ch D (List.range rows.length) fun i hi => by
      obtain ⟨e, he, -⟩ := ht i (List.mem_range.1 hi); exact ⟨e, he⟩
    refine ⟨cs, hcs, b, hb', _, rfl, s, hs, ?_⟩
    rw [Bool.and_eq_true]
    exact ⟨hiff.2 hb, (validateSteps_iff air rows w hrect ch D _ s hs).2
      fun i hi => ht i (List.mem_range.1 hi)⟩

/-- The validation of trace polynomials is the validation of the table of their values. -/
theorem validateTrace_eq {F : Type} [Field F] [DecidableEq F] (air : Air F Ch)
    (polys : List (Polynomial F)) (g : F) (n : Nat) (ch : Ch) (hpos : 0 < polys.length) :
    validateTrace air polys g n ch = validateTable air
      (ofRows ((List.range n).map fun i => polys.map fun p => p.eval (g ^ i)) polys.length) ch := by
  unfold validateTrace
  have hne : (polys.map fun p => (List.range n).map fun i => p.eval (g ^ i)) ≠ [] := by
    intro h
    have := hpos
    rw [List.map_eq_nil_iff] at h
    rw [h] at this; exact absurd this (by simp)
  have hlen : ∀ c ∈ (polys.map fun p => (List.range n).map fun i => p.eval (g ^ i)), c.length = n := by
    intro c hc
    obtain ⟨p, -, rfl⟩ := List.mem_map.1 hc
    simp
  rw [newFromCols_ok _ n hne hlen, Outcome.bind_ok]
  have hrows : (List.range n).map (rowOf (polys.map fun p => (List.range n).map fun i =>
      p.eval (g ^ i))) = (List.range n).map fun i => polys.map fun p => p.eval (g ^ i) := by
    apply List.map_congr_left
    intro i hi
    have hi := List.mem_range.1 hi
    obtain ⟨h1, h2⟩ := rowOf_eq _ n i hlen hi
    apply List.ext_getElem?
    intro j
    by_cases hj : j < polys.length
    · rw [h2 j (by simpa using hj)]
      simp [hi, hj]
    · rw [List.getElem?_eq_none (by rw [h1]; simp; omega), List.getElem?_eq_none (by simp; omega)]
  rw [hrows, List.length_map]

/-- **C35.** `validate_trace` on the trace polynomials returns `true` exactly when the table of their
values on the trace domain satisfies the AIR. -/
theorem C35_validate_trace {F : Type} [Field F] [DecidableEq F] (air : Air F Ch)
    (polys : List (Polynomial F)) (g : F) (n : Nat) (ch : Ch) (D : Declared air n polys.length ch) :
    validateTrace air polys g n ch = .ok true ↔
      Satisfies air ((List.range n).map fun i => polys.map fun p => p.eval (g ^ i)) polys.length ch := by
  rw [validateTrace_eq air polys g n ch D.width_pos]
  refine C35_validate_table air _ _ ?_ ch (by simpa using D)
  intro r hr
  obtain ⟨i, -, rfl⟩ := List.mem_map.1 hr
  simp

/-- The rows of the full trace of the run of `simple_program`. -/
def exampleRows : List (List FE) := List.zipWith (· ++ ·) Examples.main0.1 Examples.aux0

/-- The hypotheses of C35 hold for the Cairo AIR and the trace of `simple_program`, and both sides of
the equivalence occur: the trace is valid, and it is not when the initial `pc` is claimed to be 2. -/
example : (∀ r ∈ exampleRows, r.length = 52) ∧ exampleRows.length = 8 ∧
    Declared (CairoAir.air 8 Examples.main0.2 ⟨4, 3, 3, 1⟩) exampleRows.length 52 Examples.ch0 ∧
    validateTable (CairoAir.air 8 Examples.main0.2 ⟨4, 3, 3, 1⟩) (ofRows exampleRows 52) Examples.ch0
      = .ok true ∧
    validateTable (CairoAir.air 8 { Examples.main0.2 with pcInit := 2 } ⟨4, 3, 3, 1⟩)
      (ofRows exampleRows 52) Examples.ch0 = .ok false := by
  have hl : exampleRows.length = 8 := by decide +kernel
  refine ⟨by decide +kernel, hl, ?_, by decide +kernel, by decide +kernel⟩
  rw [hl]
  exact CairoAir.declared 8 Examples.main0.2 _ _ (by decide) (by decide +kernel)

end Verif.Props
