import Verif.Model.ExecutionTrace
import Verif.Model.Trace

/-!
# Tables as lists of rows
-/

namespace Verif

namespace TraceTable
variable {F : Type}

/-- The table with given rows. -/
def ofRows (rows : List (List F)) (w : Nat) : TraceTable F := ⟨rows.flatten, w⟩

end TraceTable

namespace ExecTrace

/-- The accesses of the main trace, row by row. -/
def accesses (rows : List (List FE)) : List (FE × FE) :=
  (getCols rows ADDR_COLUMNS).zip (getCols rows VALUE_COLUMNS)

/-- Row `i` of the concatenation of the main and the auxiliary trace
(`TraceTable::concatenate`, src/starks/trace.rs:112-124), as a function of the column. -/
def fullRow (rows aux : List (List FE)) (i : Nat) : Nat → FE :=
  fun c => (rows.getD i [] ++ aux.getD i []).getD c 0

end ExecTrace

namespace Props

/-- A row of the trace as a function of the column. -/
def rowFn (cells : List FE) : Nat → FE := fun i => cells.getD i 0

end Props
end Verif
