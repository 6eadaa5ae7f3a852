import Verif.Spec.Air
import Verif.Spec.Cairo
import Verif.Model.CairoAir

/-!
# Reading a Cairo trace

Names for what the columns of a (main and auxiliary) Cairo trace mean.
-/

namespace Verif.Spec
open CairoAir

/-- The `k`-th memory access of a trace, row by row: `pc`, `dst`, `op0`, `op1` of every row. -/
def access (rows : List (List FE)) (k : Nat) : FE × FE :=
  (cell rows (k / 4) (FRAME_PC + k % 4), cell rows (k / 4) (FRAME_INST + k % 4))

/-- The `k`-th entry of the sorted memory columns, row by row. -/
def sortedAccess (hasRc : Bool) (rows : List (List FE)) (k : Nat) : FE × FE :=
  (cell rows (k / 4) (MEMORY_ADDR_SORTED_0 + k % 4 - builtinOffset hasRc),
    cell rows (k / 4) (MEMORY_VALUES_SORTED_0 + k % 4 - builtinOffset hasRc))

/-- The `k`-th entry of the memory running product, row by row. -/
def runningProduct (hasRc : Bool) (rows : List (List FE)) (k : Nat) : FE :=
  cell rows (k / 4) (PERMUTATION_ARGUMENT_COL_0 + k % 4 - builtinOffset hasRc)

/-- The `k`-th offset of a trace, row by row. -/
def offset (rows : List (List FE)) (k : Nat) : FE := cell rows (k / 3) (OFF_DST + k % 3)

/-- The `k`-th entry of the sorted offset columns, row by row. -/
def sortedOffset (hasRc : Bool) (rows : List (List FE)) (k : Nat) : FE :=
  cell rows (k / 3) (RANGE_CHECK_COL_1 + k % 3 - builtinOffset hasRc)

/-- The registers in row `i`. -/
def regsAt (rows : List (List FE)) (i : Nat) : Regs :=
  ⟨cell rows i FRAME_PC, cell rows i FRAME_AP, cell rows i FRAME_FP⟩

/-- A rectangular trace of the width the Cairo AIR expects that satisfies the AIR for the given
public inputs and challenges, and is at least as long as the claimed number of steps. -/
structure Accepted (pi : PublicInputs) (opts : ProofOptions) (rows : List (List FE))
    (ch : RAPChallenges FE) : Prop where
  rect : ∀ r ∈ rows, r.length = traceColumns (hasRcBuiltin pi)
  steps : pi.numSteps ≤ rows.length
  sat : Satisfies (CairoAir.air rows.length pi opts) rows (traceColumns (hasRcBuiltin pi)) ch

end Verif.Spec
