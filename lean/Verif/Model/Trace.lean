import Verif.Model.ProofCodec
import Verif.Model.CairoImport
import Mathlib.Algebra.Polynomial.Eval.Defs

/-!
# Trace tables and frames

Models `src/starks/trace.rs` and the frame readers of `src/starks/frame.rs:17-83`.
-/

namespace Verif

/-- `v[i]` on a vector or slice (Rust core): panics when out of range.
Used at src/starks/trace.rs:101. -/
def index {ε α : Type} (l : List α) (i : Nat) : Outcome ε α := Outcome.ofOptionUnwrap l[i]?

/-- `v[a..b]` on a vector or slice (Rust core): panics when out of range.
Used at src/starks/trace.rs:116. -/
def subslice {ε α : Type} (l : List α) (a b : Nat) : Outcome ε (List α) :=
  if a ≤ b ∧ b ≤ l.length then .ok ((l.drop a).take (b - a)) else .panic

/-- `TraceTable` (src/starks/trace.rs:9-13): row-major cells. -/
structure TraceTable (F : Type) where
  table : List F
  nCols : Nat
  deriving DecidableEq, Repr

namespace TraceTable
variable {F : Type}

/-- `TraceTable::n_rows` (src/starks/trace.rs:61-67). -/
def nRows (t : TraceTable F) : Nat := if t.nCols = 0 then 0 else t.table.length / t.nCols

/-- `TraceTable::get_cols` (src/starks/trace.rs:31-43). -/
def getCols (t : TraceTable F) (columns : List Nat) : Outcome Empty (TraceTable F) := do
  let rows ← mapOutcome
    (fun r => mapOutcome (fun c => index t.table (r * t.nCols + c)) columns) (List.range t.nRows)
  return ⟨rows.flatten, columns.length⟩

/-- `TraceTable::new_from_cols` (src/starks/trace.rs:45-59) in release builds, without the `debug_assert!` that all
columns have the same length (see `newFromColsDebug` in Verif/Model/Debug.lean). -/
def newFromCols (cols : List (List F)) : Outcome Empty (TraceTable F) := do
  let first ← index cols 0
  let rows ← mapOutcome (fun r => mapOutcome (fun col => index col r) cols) (List.range first.length)
  return ⟨rows.flatten, cols.length⟩

/-- `TraceTable::get_row` (src/starks/trace.rs:78-81). -/
def getRow {ε : Type} (t : TraceTable F) (r : Nat) : Outcome ε (List F) :=
  subslice t.table (r * t.nCols) (r * t.nCols + t.nCols)

/-- `TraceTable::rows` (src/starks/trace.rs:69-76). -/
def rows (t : TraceTable F) : Outcome Empty (List (List F)) :=
  mapOutcome (fun r => subslice t.table (r * t.nCols) (r * t.nCols + t.nCols)) (List.range t.nRows)

/-- `TraceTable::last_row` (src/starks/trace.rs:83-85). `n_rows() - 1` underflows on an empty
table: a panic in debug builds; in release builds the wrapped index is out of range or overflows. -/
def lastRow (t : TraceTable F) : Outcome Empty (List F) :=
  if t.nRows = 0 then .panic else t.getRow (t.nRows - 1)

/-- `TraceTable::cols` (src/starks/trace.rs:87-96). -/
def cols (t : TraceTable F) : Outcome Empty (List (List F)) :=
  mapOutcome (fun c => mapOutcome (fun r => index t.table (r * t.nCols + c)) (List.range t.nRows))
    (List.range t.nCols)

/-- `TraceTable::get` (src/starks/trace.rs:99-102). -/
def get {ε : Type} (t : TraceTable F) (step col : Nat) : Outcome ε F :=
  index t.table (step * t.nCols + col)

/-- The loop of `concatenate` (src/starks/trace.rs:115-119): one iteration per row start
`row_index`, with `i` the position in the new cells. -/
def concatenateRows (table : List F) (oldCols : Nat) (newCells : List F) (nCols : Nat) :
    List Nat → Nat → Outcome Empty (List F)
  | [], _ => .ok []
  | rowIndex :: rest, i => do
    let a ← subslice table rowIndex (rowIndex + oldCols)
    let b ← subslice newCells i (i + nCols)
    let r ← concatenateRows table oldCols newCells nCols rest (i + nCols)
    return a ++ b ++ r

/-- The indices `(0..len).step_by(step)` (Rust core), for a positive step.
Used at src/starks/trace.rs:115. -/
def stepBy (len step : Nat) : List Nat := (List.range ((len + step - 1) / step)).map (· * step)

/-- `TraceTable::concatenate` (src/starks/trace.rs:112-124). `step_by(0)` panics. -/
def concatenate (t : TraceTable F) (newCells : List F) (nCols : Nat) :
    Outcome Empty (TraceTable F) :=
  if t.nCols = 0 then .panic
  else do
    let table ← concatenateRows t.table t.nCols newCells nCols (stepBy t.table.length t.nCols) 0
    return ⟨table, t.nCols + nCols⟩

end TraceTable

namespace Frame
variable {F : Type}

/-- `Frame::num_rows` (src/starks/frame.rs:22-24): division by zero panics. -/
def numRows {ε : Type} (f : Frame F) : Outcome ε Nat :=
  if f.rowWidth = 0 then .panic else .ok (f.data.length / f.rowWidth)

/-- `Frame::get_row` (src/starks/frame.rs:30-33). -/
def getRow {ε : Type} (f : Frame F) (r : Nat) : Outcome ε (List F) :=
  subslice f.data (r * f.rowWidth) (r * f.rowWidth + f.rowWidth)

/-- `Frame::read_from_trace` (src/starks/frame.rs:40-59). `% 0` panics when the table has no rows
and at least one offset is read. -/
def readFromTrace {ε : Type} (t : TraceTable F) (step blowup : Nat) (offsets : List Nat) :
    Outcome ε (Frame F) := do
  let rows ← mapOutcome (fun o =>
    if t.nRows = 0 then .panic else t.getRow ((step + o * blowup) % t.nRows)) offsets
  return ⟨rows.flatten, t.nCols⟩

/-- `Frame::get_trace_evaluations` (src/starks/frame.rs:67-83). Polynomials of lambdaworks (external)
are Mathlib polynomials. -/
noncomputable def getTraceEvaluations [Field F] (polys : List (Polynomial F)) (x : F)
    (offsets : List Nat) (primitiveRoot : F) : List (List F) :=
  (offsets.map fun o => x * primitiveRoot ^ o).map fun pt => polys.map fun p => p.eval pt

end Frame
end Verif
