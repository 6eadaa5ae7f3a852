import Verif.Model.ExecutionTrace
import Verif.Model.Trace

/-!
# Building the main trace, column by column, on flat tables

`Verif/Model/ExecutionTrace.lean` computes the main trace one step at a time and keeps it as a list
of rows. This file models the same functions of `src/cairo/execution_trace.rs` with the control flow
of the source: vectors with one entry per step, zips, in-place updates by index, columns pushed one
by one, a flat row-major table to which cells are appended, and loops. `Verif/Props/MainTable.lean`
proves that both models give the same table, or panic together.

The functions of one step (`computeDst`, `computeRes`, …) are shared: they are the closures the
source maps over the vectors.
-/

namespace Verif.MainTable
open CairoAir ExecTrace

/-- `v[i] = x` on a vector (Rust core): panics when out of range.
Used at src/cairo/execution_trace.rs:586. -/
def setAt {α : Type} (l : List α) (i : Nat) (x : α) : Run (List α) :=
  if i < l.length then .ok (l.set i x) else .panic

/-- `RegisterStates::steps` (src/cairo/register_states.rs:37-39). -/
def steps (states : List RegistersState) : Nat := states.length

/-- `RegisterStates::flags_and_offsets` (src/cairo/register_states.rs:41-49): collecting into a
`Result` stops at the first error. -/
def flagsAndOffsets (states : List RegistersState) (mem : CairoMemory) :
    Outcome InstructionDecodingError (List (CairoInstructionFlags × InstructionOffsets)) :=
  mapOutcome (instructionFlagsAndOffsets mem) states

/-- `compute_dst` (src/cairo/execution_trace.rs:445-474). -/
def computeDsts (flags : List CairoInstructionFlags) (offsets : List InstructionOffsets)
    (states : List RegistersState) (mem : CairoMemory) : Run (List FE × List FE) := do
  let r ← mapOutcome (fun ((f, o), t) => computeDst f o t mem) ((flags.zip offsets).zip states)
  return r.unzip

/-- `compute_op0` (src/cairo/execution_trace.rs:479-508). -/
def computeOp0s (flags : List CairoInstructionFlags) (offsets : List InstructionOffsets)
    (states : List RegistersState) (mem : CairoMemory) : Run (List FE × List FE) := do
  let r ← mapOutcome (fun ((f, o), t) => computeOp0 f o t mem) ((flags.zip offsets).zip states)
  return r.unzip

/-- `compute_op1` (src/cairo/execution_trace.rs:513-568). -/
def computeOp1s (flags : List CairoInstructionFlags) (offsets : List InstructionOffsets)
    (states : List RegistersState) (mem : CairoMemory) (op0s : List FE) :
    Run (List FE × List FE) := do
  let r ← mapOutcome (fun (((f, o), op0), t) => computeOp1 f o t mem op0)
    (((flags.zip offsets).zip op0s).zip states)
  return r.unzip

/-- `compute_res` (src/cairo/execution_trace.rs:382-440). -/
def computeRess (flags : List CairoInstructionFlags) (op0s op1s dsts : List FE) : Run (List FE) :=
  mapOutcome (fun (((f, op0), op1), dst) => computeRes f op0 op1 dst)
    (((flags.zip op0s).zip op1s).zip dsts)

/-- The loop of `update_values` (src/cairo/execution_trace.rs:579-591) over the flags still to be
visited, the first of them having index `i`. -/
def updateLoop (flags : List CairoInstructionFlags) (states : List RegistersState) :
    List CairoInstructionFlags → Nat → List FE → List FE → List FE →
      Run (List FE × List FE × List FE)
  | [], _, op0s, dst, res => .ok (op0s, dst, res)
  | f :: rest, i, op0s, dst, res =>
    if f.opcode = .call then do
      let fi ← index flags i
      let instructionSize := if fi.op1Src = .imm then 2 else 1
      let t ← index states i
      if t.pc + instructionSize < 2 ^ 64 then do
        let op0s ← setAt op0s i ((t.pc + instructionSize : Nat) : FE)
        let dst ← setAt dst i ((t.fp : Nat) : FE)
        updateLoop flags states rest (i + 1) op0s dst res
      else .panic
    else if f.opcode = .assertEq then do
      let d ← index dst i
      let res ← setAt res i d
      updateLoop flags states rest (i + 1) op0s dst res
    else updateLoop flags states rest (i + 1) op0s dst res

/-- `update_values` (src/cairo/execution_trace.rs:572-592): the updated `op0s`, `dst` and `res`.
`pc + instruction_size` overflowing `u64` is a panic (debug builds; release builds wrap). -/
def updateAll (flags : List CairoInstructionFlags) (states : List RegistersState)
    (op0s dst res : List FE) : Run (List FE × List FE × List FE) :=
  updateLoop flags states flags 0 op0s dst res

/-- `rows_to_cols` (src/cairo/execution_trace.rs:596-602): indexing the first row panics when there
is none. Rows are arrays of one length, so that `elem[col_idx]` is in range. -/
def rowsToCols (rows : List (List FE)) : Run (List (List FE)) := do
  let first ← index rows 0
  mapOutcome (fun c => mapOutcome (fun r => index r c) rows) (List.range first.length)

/-- The loop of `decompose_rc_values_into_trace_columns` (src/cairo/execution_trace.rs:611-620). -/
def decomposeLoop : Nat → List Nat → List (List FE)
  | 0, _ => []
  | k + 1, values =>
    (values.map fun x => ((x &&& 0xFFFF : Nat) : FE)) ::
      decomposeLoop k (values.map fun x => x >>> 16)

/-- `decompose_rc_values_into_trace_columns` (src/cairo/execution_trace.rs:604-624). -/
def decomposeColumns (values : List FE) : List (List FE) :=
  decomposeLoop 8 (values.map fun x => x.val)

/-- `Vec::resize` (Rust core). Used at src/cairo/execution_trace.rs:371. -/
def resize (l : List FE) (n : Nat) : List FE := l.take n ++ List.replicate (n - l.length) 0

/-- `add_rc_builtin_columns` (src/cairo/execution_trace.rs:359-379). -/
def addRcBuiltinColumns (cols : List (List FE)) (range : Nat × Nat) (mem : CairoMemory) :
    Run (List (List FE)) := do
  let values ← rcValues range mem
  let first ← index cols 0
  return cols ++ (decomposeColumns values).map (fun c => resize c first.length) ++
    [resize values first.length]

/-- The columns of the builtin are added when there is a range-check segment
(src/cairo/execution_trace.rs:346-351). -/
def addBuiltin (cols : List (List FE)) (pi : PublicInputs) (mem : CairoMemory) :
    Run (List (List FE)) :=
  match pi.memorySegments.get? .rangeCheck with
  | some range => addRcBuiltinColumns cols range mem
  | none => .ok cols

/-- `build_cairo_execution_trace` (src/cairo/execution_trace.rs:261-356). -/
def buildCairoExecutionTrace (states : List RegistersState) (mem : CairoMemory)
    (pi : PublicInputs) : Run (TraceTable FE) := do
  let nSteps := steps states
  let fos ← (flagsAndOffsets states mem).unwrapErr
  let (flags, offsets) := fos.unzip
  let (dstAddrs, dsts) ← computeDsts flags offsets states mem
  let (op0Addrs, op0s) ← computeOp0s flags offsets states mem
  let (op1Addrs, op1s) ← computeOp1s flags offsets states mem op0s
  let res ← computeRess flags op0s op1s dsts
  let (op0s, dsts, res) ← updateAll flags states op0s dsts res
  let reprFlags ← mapOutcome (fun f => (CairoInstructionFlags.toTrace f).unwrapErr) flags
  let reprOffsets := offsets.map InstructionOffsets.toTrace
  let aps := states.map fun t => ((t.ap : Nat) : FE)
  let fps := states.map fun t => ((t.fp : Nat) : FE)
  let pcs := states.map fun t => ((t.pc : Nat) : FE)
  let instructions ← mapOutcome (fun t : RegistersState => memGet mem t.pc) states
  let t0 ← mapOutcome (fun (r, dst) => do
    let b ← index r 9
    return b * dst) (reprFlags.zip dsts)
  let t1 := (t0.zip res).map fun (t, r) => t * r
  let mul := (op0s.zip op1s).map fun (a, b) => a * b
  let flagCols ← rowsToCols reprFlags
  let offsetCols ← rowsToCols reprOffsets
  let selector ← setAt (List.replicate nSteps (1 : FE)) (nSteps - 1) 0
  let cols := flagCols ++ [res] ++ [aps] ++ [fps] ++ [pcs] ++ [dstAddrs] ++ [op0Addrs] ++
    [op1Addrs] ++ [instructions] ++ [dsts] ++ [op0s] ++ [op1s] ++ offsetCols ++ [t0] ++ [t1] ++
    [mul] ++ [selector]
  let cols ← addBuiltin cols pi mem
  TraceTable.newFromCols cols

/-- `pad_with_last_row` (src/cairo/execution_trace.rs:98-106). -/
def padWithLastRow (t : TraceTable FE) (numberRows : Nat) : Run (TraceTable FE) := do
  let last ← t.lastRow
  return { t with table := t.table ++ (List.replicate numberRows last).flatten }

/-- The `for` loop of `pad_with_last_row_and_zeros` (src/cairo/execution_trace.rs:118-120). -/
def zeroColumns : List Nat → List FE → Run (List FE)
  | [], row => .ok row
  | c :: rest, row => do
    let row ← setAt row c 0
    zeroColumns rest row

/-- `pad_with_last_row_and_zeros` (src/cairo/execution_trace.rs:112-127). -/
def padWithLastRowAndZeros (t : TraceTable FE) (numberRows : Nat) (zeroPadColumns : List Nat) :
    Run (TraceTable FE) := do
  let last ← t.lastRow
  let row ← zeroColumns zeroPadColumns last
  return { t with table := t.table ++ (List.replicate numberRows row).flatten }

/-- `add_pub_memory_dummy_accesses` (src/cairo/execution_trace.rs:91-96). -/
def addPubMemoryDummyAccesses (t : TraceTable FE) (pubMemoryLen : Nat) : Run (TraceTable FE) :=
  padWithLastRowAndZeros t ((pubMemoryLen >>> 2) + 1) MEMORY_COLUMNS

/-- The loop of `get_rc_holes` over `windows(2)` (src/cairo/execution_trace.rs:154-161): the missing
values collected so far are extended. `window[0] + 1` cannot overflow `u16`, as it is at most
`window[1]` in a sorted vector. -/
def missingLoop : List Nat → List FE → List FE
  | a :: b :: t, acc =>
    missingLoop (b :: t)
      (if b ≠ a then acc ++ (List.range' (a + 1) (b - (a + 1))).map (fun n : Nat => (n : FE))
       else acc)
  | _, acc => acc

/-- `get_rc_holes` (src/cairo/execution_trace.rs:136-173). -/
def getRcHoles (t : TraceTable FE) (columns : List Nat) : Run (List FE × Nat × Nat) := do
  let offsetColumns ← t.getCols columns
  let sorted := sortNat (offsetColumns.table.map fun x => x.val % 2 ^ 16)
  let missing := missingLoop sorted []
  let padding := ((missing.length + 2) / 3) * 3 - missing.length
  let last ← Outcome.ofOptionUnwrap sorted.getLast?
  let first ← index sorted 0
  return (missing ++ List.replicate padding ((last : Nat) : FE), first, last)

/-- The loop of `fill_rc_holes` (src/cairo/execution_trace.rs:180-184) over the given values of the
counter. -/
def fillRcLoop (zerosLeft zerosRight holes : List FE) : List Nat → List FE → Run (List FE)
  | [], table => .ok table
  | i :: rest, table => do
    let three ← subslice holes i (i + 3)
    fillRcLoop zerosLeft zerosRight holes rest (table ++ zerosLeft ++ three ++ zerosRight)

/-- `fill_rc_holes` (src/cairo/execution_trace.rs:176-185). `(0..n).step_by(3)` gives the
`⌈n / 3⌉` multiples of three below `n`. `n_cols - OFF_OP1 - 1` underflowing is a panic. -/
def fillRcHoles (t : TraceTable FE) (holes : List FE) : Run (TraceTable FE) :=
  if t.nCols < OFF_OP1 + 1 then .panic
  else do
    let table ← fillRcLoop (List.replicate OFF_DST 0) (List.replicate (t.nCols - OFF_OP1 - 1) 0)
      holes ((List.range ((holes.length + 2) / 3)).map (3 * ·)) t.table
    return { t with table := table }

/-- Adding one to an element that is not the largest one. Used for the termination of
`holesLoop`. -/
theorem val_succ {a b : FE} (h : a.val < b.val) : (a + 1).val = a.val + 1 := by
  have hb : b.val < P := ZMod.val_lt b
  have h1 : (1 : FE).val = 1 := ZMod.val_one P
  rw [ZMod.val_add, h1, Nat.mod_eq_of_lt (by omega)]

/-- The `while` loop of `get_memory_holes` (src/cairo/execution_trace.rs:211-216). -/
def holesLoop (codelen : Nat) (addr hole : FE) (acc : List FE) : List FE :=
  if _ : hole.val < addr.val then
    holesLoop codelen addr (hole + 1) (if codelen < hole.val then acc ++ [hole] else acc)
  else acc
termination_by addr.val - hole.val
decreasing_by
  rw [val_succ ‹hole.val < addr.val›]; omega

/-- The `for` loop of `get_memory_holes` (src/cairo/execution_trace.rs:199-219). -/
def memoryHolesLoop (codelen : Nat) : List FE → FE → List FE → List FE
  | [], _, acc => acc
  | addr :: rest, prev, acc =>
    memoryHolesLoop codelen rest addr
      (if addr - prev ≠ 1 ∧ addr - prev ≠ 0 ∧ codelen < addr.val then
        holesLoop codelen addr (prev + 1) acc
      else acc)

/-- `get_memory_holes` (src/cairo/execution_trace.rs:195-222). -/
def getMemoryHoles (sortedAddrs : List FE) (codelen : Nat) : Run (List FE) := do
  let first ← index sortedAddrs 0
  return memoryHolesLoop codelen sortedAddrs first []

/-- The inner loop of `fill_memory_holes` (src/cairo/execution_trace.rs:247-251): the row with the
next holes, and the holes left in the iterator. -/
def fillRow : List Nat → List FE → List FE → Run (List FE × List FE)
  | [], row, holes => .ok (row, holes)
  | _ :: rest, row, [] => fillRow rest row []
  | c :: rest, row, h :: holes => do
    let row ← setAt row c h
    fillRow rest row holes

/-- The outer loop of `fill_memory_holes` (src/cairo/execution_trace.rs:243-254). -/
def fillMemoryLoop (last : List FE) : Nat → List FE → List FE → Run (List FE)
  | 0, _, table => .ok table
  | k + 1, holes, table => do
    let (row, holes) ← fillRow ADDR_COLUMNS last holes
    fillMemoryLoop last k holes (table ++ row)

/-- `fill_memory_holes` (src/cairo/execution_trace.rs:227-255). `div_ceil` is that of the crate
`num-integer`: the quotient rounded up. -/
def fillMemoryHoles (t : TraceTable FE) (holes : List FE) : Run (TraceTable FE) := do
  let last ← t.lastRow
  let paddingSize := (holes.length + ADDR_COLUMNS.length - 1) / ADDR_COLUMNS.length
  let table ← fillMemoryLoop last paddingSize holes t.table
  return { t with table := table }

/-- The holes are filled when there are any (src/cairo/execution_trace.rs:76-78). -/
def fillMemoryHolesIfAny (t : TraceTable FE) (holes : List FE) : Run (TraceTable FE) :=
  if holes.isEmpty then .ok t else fillMemoryHoles t holes

/-- `build_main_trace` (src/cairo/execution_trace.rs:57-87): the main trace and the updated public
inputs. -/
def buildMainTrace (states : List RegistersState) (mem : CairoMemory) (pi : PublicInputs) :
    Run (TraceTable FE × PublicInputs) := do
  let t ← buildCairoExecutionTrace states mem pi
  let addressCols ← t.getCols [FRAME_PC, FRAME_DST_ADDR, FRAME_OP0_ADDR, FRAME_OP1_ADDR]
  let sortedAddrs := addressCols.table.insertionSort fun a b => a.val ≤ b.val
  let (rcHoles, rcMin, rcMax) ← getRcHoles t [OFF_DST, OFF_OP0, OFF_OP1]
  let pi := { pi with
    rangeCheckMin := some (UInt16.ofNat rcMin), rangeCheckMax := some (UInt16.ofNat rcMax) }
  let t ← fillRcHoles t rcHoles
  let memoryHoles ← getMemoryHoles sortedAddrs pi.publicMemory.length
  let t ← fillMemoryHolesIfAny t memoryHoles
  let t ← addPubMemoryDummyAccesses t pi.publicMemory.length
  let padding := nextPowerOfTwo t.nRows - t.nRows
  let t ← padWithLastRow t padding
  return (t, pi)

/-! ## The auxiliary trace -/

/-- The loop of `add_pub_memory_in_public_input_section` (src/cairo/air.rs:488-491) over the given
values of the counter. -/
def pubMemoryLoop (publicMemory : HMap FE FE) (aAux : List FE) :
    List Nat → List FE → Run (List FE)
  | [], vAux => .ok vAux
  | i :: rest, vAux => do
    let address ← index aAux i
    let v ← Outcome.ofOptionUnwrap (publicMemory.get? address)
    let vAux ← setAt vAux i v
    pubMemoryLoop publicMemory aAux rest vAux

/-- `add_pub_memory_in_public_input_section` (src/cairo/air.rs:475-494). The subtraction panics on
underflow (debug builds; in release builds `splice` then panics). -/
def addPubMemory (addresses values : List FE) (pi : PublicInputs) : Run (List FE × List FE) :=
  if addresses.length < pi.publicMemory.length then .panic
  else do
    let publicInputSection := addresses.length - pi.publicMemory.length
    let addrs ← getPubMemoryAddrs (pi.memorySegments.get? .output) pi.publicMemory.length
    let aAux := addresses.take publicInputSection ++ addrs
    let vAux ← pubMemoryLoop pi.publicMemory aAux
      (List.range' publicInputSection (aAux.length - publicInputSection)) values
    return (aAux, vAux)

/-- `sort_columns_by_memory_address` (src/cairo/air.rs:519-523). -/
def sortColumns (addresses values : List FE) : List FE × List FE :=
  (sortByAddress (addresses.zip values)).unzip

/-- The closure `scan` runs in `generate_memory_permutation_argument_column`
(src/cairo/air.rs:546-550), on the items still to be visited. -/
def memoryScan (z alpha : FE) : FE → List ((FE × FE) × FE) → List FE
  | _, [] => []
  | product, ((a, v), den) :: rest =>
    let product' := product * ((z - (a + alpha * v)) * den)
    product' :: memoryScan z alpha product' rest

/-- `generate_memory_permutation_argument_column` (src/cairo/air.rs:525-552). -/
def memoryPermutationColumn (addressesOriginal valuesOriginal addressesSorted valuesSorted : List FE)
    (ch : RAPChallenges FE) : Run (List FE) := do
  let denom ← batchInverse ((addressesSorted.zip valuesSorted).map fun (ap, vp) =>
    ch.zMemory - (ap + ch.alphaMemory * vp))
  return memoryScan ch.zMemory ch.alphaMemory 1 ((addressesOriginal.zip valuesOriginal).zip denom)

/-- The closure `scan` runs in `generate_range_check_permutation_argument_column`
(src/cairo/air.rs:566-570), on the items still to be visited. -/
def rangeCheckScan (z : FE) : FE → List (FE × FE) → List FE
  | _, [] => []
  | product, (num, den) :: rest =>
    let product' := product * (z - num) * den
    product' :: rangeCheckScan z product' rest

/-- `generate_range_check_permutation_argument_column` (src/cairo/air.rs:553-572). -/
def rangeCheckPermutationColumn (original sorted : List FE) (ch : RAPChallenges FE) :
    Run (List FE) := do
  let denom ← batchInverse (sorted.map fun x => ch.zRangeCheck - x)
  return rangeCheckScan ch.zRangeCheck 1 (original.zip denom)

/-- The cells one iteration of the last loop of `build_auxiliary_trace` pushes
(src/cairo/air.rs:708-725). -/
def auxPushes (offsets addresses values permutation rcPermutation : List FE) (i : Nat) :
    List (Run FE) :=
  [index offsets (3 * i), index offsets (3 * i + 1), index offsets (3 * i + 2),
    index addresses (4 * i), index addresses (4 * i + 1), index addresses (4 * i + 2),
    index addresses (4 * i + 3),
    index values (4 * i), index values (4 * i + 1), index values (4 * i + 2),
    index values (4 * i + 3),
    index permutation (4 * i), index permutation (4 * i + 1), index permutation (4 * i + 2),
    index permutation (4 * i + 3),
    index rcPermutation (3 * i), index rcPermutation (3 * i + 1), index rcPermutation (3 * i + 2)]

/-- The last loop of `build_auxiliary_trace` (src/cairo/air.rs:706-726). -/
def auxLoop (offsets addresses values permutation rcPermutation : List FE) :
    List Nat → List FE → Run (List FE)
  | [], table => .ok table
  | i :: rest, table => do
    let cells ← mapOutcome id (auxPushes offsets addresses values permutation rcPermutation i)
    auxLoop offsets addresses values permutation rcPermutation rest (table ++ cells)

/-- `CairoAIR::build_auxiliary_trace` (src/cairo/air.rs:660-729). The number of auxiliary columns is
18 (src/cairo/air.rs:739-741). -/
def buildAuxiliaryTrace (pi : PublicInputs) (main : TraceTable FE) (ch : RAPChallenges FE) :
    Run (TraceTable FE) := do
  let addressesOriginal ← main.getCols [FRAME_PC, FRAME_DST_ADDR, FRAME_OP0_ADDR, FRAME_OP1_ADDR]
  let valuesOriginal ← main.getCols [FRAME_INST, FRAME_DST, FRAME_OP0, FRAME_OP1]
  let (addresses, values) ← addPubMemory addressesOriginal.table valuesOriginal.table pi
  let (addresses, values) := sortColumns addresses values
  let permutationCol ← memoryPermutationColumn addressesOriginal.table valuesOriginal.table addresses
    values ch
  let offsetsOriginal ← main.getCols [OFF_DST, OFF_OP0, OFF_OP1]
  let offsetsSorted := (sortNat (offsetsOriginal.table.map fun x => x.val % 2 ^ 16)).map
    fun n : Nat => (n : FE)
  let rcPermutationCol ← rangeCheckPermutationColumn offsetsOriginal.table offsetsSorted ch
  let table ← auxLoop offsetsSorted addresses values permutationCol rcPermutationCol
    (List.range main.nRows) []
  return ⟨table, 18⟩

end Verif.MainTable
