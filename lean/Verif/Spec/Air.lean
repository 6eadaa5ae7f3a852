import Verif.Model.Air

/-!
# Satisfying an AIR

What it means for a table of rows to satisfy the constraints of an AIR.
-/

namespace Verif.Spec
variable {F Ch : Type}

/-- The frame at row `i`: the rows `i + o` for the offsets `o`, wrapping at the end of the trace. -/
def frameAt (rows : List (List F)) (width : Nat) (offsets : List Nat) (i : Nat) : Frame F :=
  ⟨(offsets.map fun o => rows.getD ((i + o) % rows.length) []).flatten, width⟩

/-- The cell in row `i` and column `c` of a table of field elements (zero outside the table). -/
def cell [Zero F] (rows : List (List F)) (i c : Nat) : F := (rows.getD i []).getD c 0

/-- A trace, given by its rows, satisfies the AIR for given challenges: the boundary constraints
hold, and each transition constraint vanishes on every row except the last ones it exempts. -/
structure Satisfies [Zero F] (air : Air F Ch) (rows : List (List F)) (width : Nat) (ch : Ch) :
    Prop where
  boundary : ∃ cs, air.boundaryConstraints ch = .ok cs ∧
    ∀ c ∈ cs, ∃ row, rows[c.step]? = some row ∧ row[c.col]? = some c.value
  transition : ∀ i < rows.length, ∃ evals,
    air.computeTransition (frameAt rows width air.context.transitionOffsets i) ch = .ok evals ∧
    ∀ (k : Nat) (x : Nat), air.context.transitionExemptions[k]? = some x → i + x < rows.length →
      evals[k]? = some 0

/-- The data an AIR declares fit together, for traces of `n` rows of the given width: one exemption
per constraint, none exempting more rows than there are, as many evaluations as constraints, and
boundary constraints inside the trace. -/
structure Declared (air : Air F Ch) (n width : Nat) (ch : Ch) : Prop where
  width_pos : 0 < width
  rows_pos : 0 < n
  exemptions_len : air.context.transitionExemptions.length = air.context.numTransitionConstraints
  exemptions_le : ∀ x ∈ air.context.transitionExemptions, x ≤ n
  evals_len : ∀ frame evals, air.computeTransition frame ch = .ok evals →
    evals.length = air.context.numTransitionConstraints
  boundary_in : ∀ cs, air.boundaryConstraints ch = .ok cs → ∀ c ∈ cs, c.step < n ∧ c.col < width

end Verif.Spec
