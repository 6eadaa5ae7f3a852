import Verif.Model.CairoAir
import Verif.Model.CairoImport
import Verif.Model.Decode
import Mathlib.Data.Nat.Log
import Mathlib.Data.List.Sort

/-!
# Building the main trace of a Cairo run

Models `src/cairo/execution_trace.rs` and `RegistersState::instruction_flags_and_offsets`
(src/cairo/register_states.rs:16-28).

Simplifications, used throughout this file:
* a `TraceTable` is given by the list of its rows (its flat row-major table is their
  concatenation; `Verif/Props/TraceTable.lean` relates the two views);
* the code computes column by column over all steps, by element-wise maps and zips of vectors of
  equal length; here one step is computed at a time. Since any failing step panics the whole
  function, the result is the same: `Verif/Model/MainTable.lean` models the column-wise code on flat
  tables, and `Verif/Props/MainTable.lean` (C71) proves that the two agree.
-/

namespace Verif.ExecTrace
open CairoAir

/-- Rust code that may panic but returns no `Result`. See src/cairo/execution_trace.rs:261-356. -/
abbrev Run (α : Type) := Outcome Empty α

/-- `ADDR_COLUMNS` (src/cairo/execution_trace.rs:37). -/
def ADDR_COLUMNS : List Nat := [FRAME_PC, FRAME_DST_ADDR, FRAME_OP0_ADDR, FRAME_OP1_ADDR]

/-- The value columns of the memory accesses (src/cairo/air.rs:669). -/
def VALUE_COLUMNS : List Nat := [FRAME_INST, FRAME_DST, FRAME_OP0, FRAME_OP1]

/-- `MEMORY_COLUMNS` (src/cairo/execution_trace.rs:26-35). -/
def MEMORY_COLUMNS : List Nat :=
  [FRAME_PC, FRAME_DST_ADDR, FRAME_OP0_ADDR, FRAME_OP1_ADDR, FRAME_INST, FRAME_DST, FRAME_OP0,
    FRAME_OP1]

/-- `u64::checked_add_signed(..).unwrap()` (Rust core). Used at src/cairo/execution_trace.rs:465. -/
def checkedAddSigned (a : Nat) (o : Int) : Run Nat :=
  if 0 ≤ (a : Int) + o ∧ (a : Int) + o < 2 ^ 64 then .ok ((a : Int) + o).toNat else .panic

/-- `*memory.get(&addr).unwrap()` (src/cairo/cairo_mem.rs:23-25). -/
def memGet (mem : CairoMemory) (addr : Nat) : Run FE := Outcome.ofOptionUnwrap (mem.get? addr)

/-- The address `base + off` and the value stored there: the body of the arms of `compute_dst`,
`compute_op0` and `compute_op1`. See src/cairo/execution_trace.rs:465-466, 499-500, 545-549. -/
def access (mem : CairoMemory) (base : Nat) (off : Int) : Run (FE × FE) := do
  let addr ← checkedAddSigned base off
  let v ← memGet mem addr
  return ((addr : FE), v)

/-- `RegistersState::instruction_flags_and_offsets` (src/cairo/register_states.rs:16-28). -/
def instructionFlagsAndOffsets (mem : CairoMemory) (t : RegistersState) :
    Outcome InstructionDecodingError (CairoInstructionFlags × InstructionOffsets) := do
  let instruction ← Outcome.okOr (mem.get? t.pc) .instructionNotFound
  let flags ← CairoInstructionFlags.decode instruction
  return (flags, InstructionOffsets.new instruction)

/-- `compute_dst` for one step (src/cairo/execution_trace.rs:445-474). -/
def computeDst (f : CairoInstructionFlags) (o : InstructionOffsets) (t : RegistersState)
    (mem : CairoMemory) : Run (FE × FE) :=
  match f.dstReg with
  | .ap => access mem t.ap o.offDst
  | .fp => access mem t.fp o.offDst

/-- `compute_op0` for one step (src/cairo/execution_trace.rs:479-508). -/
def computeOp0 (f : CairoInstructionFlags) (o : InstructionOffsets) (t : RegistersState)
    (mem : CairoMemory) : Run (FE × FE) :=
  match f.op0Reg with
  | .ap => access mem t.ap o.offOp0
  | .fp => access mem t.fp o.offOp0

/-- `compute_op1` for one step (src/cairo/execution_trace.rs:513-568). -/
def computeOp1 (f : CairoInstructionFlags) (o : InstructionOffsets) (t : RegistersState)
    (mem : CairoMemory) (op0 : FE) : Run (FE × FE) :=
  match f.op1Src with
  | .op0 => access mem (lastNim op0) o.offOp1
  | .imm => access mem t.pc o.offOp1
  | .ap => access mem t.ap o.offOp1
  | .fp => access mem t.fp o.offOp1

/-- `compute_res` for one step (src/cairo/execution_trace.rs:382-440). -/
def computeRes (f : CairoInstructionFlags) (op0 op1 dst : FE) : Run FE :=
  match f.pcUpdate with
  | .jnz =>
    match f.resLogic, f.opcode, f.apUpdate with
    | .op1, .nop, .regular | .op1, .nop, .add1 | .op1, .nop, .add2 =>
      if dst = 0 then .ok dst else .ok dst⁻¹
    | _, _, _ => .panic
  | .regular | .jump | .jumpRel =>
    match f.resLogic with
    | .op1 => .ok op1
    | .add => .ok (op0 + op1)
    | .mul => .ok (op0 * op1)
    | .unconstrained => .panic

/-- `update_values` for one step (src/cairo/execution_trace.rs:572-592): the new `op0`, `dst` and
`res`. `pc + instruction_size` overflowing `u64` is a panic (debug builds; release builds wrap). -/
def updateValues (f : CairoInstructionFlags) (t : RegistersState) (op0 dst res : FE) :
    Run (FE × FE × FE) :=
  match f.opcode with
  | .call =>
    let instructionSize := if f.op1Src = .imm then 2 else 1
    if t.pc + instructionSize < 2 ^ 64 then
      .ok (((t.pc + instructionSize : Nat) : FE), ((t.fp : Nat) : FE), res)
    else .panic
  | .assertEq => .ok (op0, dst, dst)
  | _ => .ok (op0, dst, res)

/-- The first 33 cells of the row of one step (src/cairo/execution_trace.rs:266-336). -/
def stepCells (mem : CairoMemory) (t : RegistersState) : Run (List FE) := do
  let (f, o) ← (instructionFlagsAndOffsets mem t).unwrapErr
  let (dstAddr, dst0) ← computeDst f o t mem
  let (op0Addr, op00) ← computeOp0 f o t mem
  let (op1Addr, op1) ← computeOp1 f o t mem op00
  let res0 ← computeRes f op00 op1 dst0
  let (op0, dst, res) ← updateValues f t op00 dst0 res0
  let reprFlags ← (f.toTrace).unwrapErr
  let instruction ← memGet mem t.pc
  let t0 := reprFlags.getD 9 0 * dst
  let t1 := t0 * res
  let mul := op0 * op1
  return reprFlags ++ [res, (t.ap : FE), (t.fp : FE), (t.pc : FE), dstAddr, op0Addr, op1Addr,
    instruction, dst, op0, op1] ++ o.toTrace ++ [t0, t1, mul]

/-- `decompose_rc_values_into_trace_columns`, for one value
(src/cairo/execution_trace.rs:604-624). -/
def decomposeRc (v : FE) : List FE :=
  (List.range 8).map fun k => ((v.val >>> (16 * k) &&& 0xFFFF : Nat) : FE)

/-- The builtin cells of row `i`: the decomposition of the `i`-th builtin value followed by the
value, or zeros past the last value (`resize` with zeros, which also drops the values beyond the
last row; src/cairo/execution_trace.rs:359-379). -/
def rcCells (values : List FE) (i : Nat) : List FE :=
  match values[i]? with
  | some v => decomposeRc v ++ [v]
  | none => List.replicate 9 0

/-- Reading the builtin segment (src/cairo/execution_trace.rs:364-366). -/
def rcValues (range : Nat × Nat) (mem : CairoMemory) : Run (List FE) :=
  mapOutcome (memGet mem) (List.range' range.1 (range.2 - range.1))

/-- `build_cairo_execution_trace` (src/cairo/execution_trace.rs:261-356). With no steps
`rows_to_cols` indexes an empty slice and panics. -/
def buildCairoExecutionTrace (states : List RegistersState) (mem : CairoMemory)
    (pi : PublicInputs) : Run (List (List FE)) := do
  let cells ← mapOutcome (stepCells mem) states
  if states.length = 0 then .panic
  else
    let withSelector :=
      cells.mapIdx fun i c => c ++ [if i = states.length - 1 then (0 : FE) else 1]
    match pi.memorySegments.get? .rangeCheck with
    | some range => do
      let values ← rcValues range mem
      return withSelector.mapIdx fun i c => c ++ rcCells values i
    | none => return withSelector

/-- `TraceTable::get_cols(..).table` (src/starks/trace.rs:31-43): the cells of the given columns,
row by row. -/
def getCols (rows : List (List FE)) (cols : List Nat) : List FE :=
  rows.flatMap fun r => cols.map fun c => r.getD c 0

/-- `sort()` on numbers (Rust core). Every correct sort gives the same list; insertion sort is used
because it computes in the kernel. Used at src/cairo/execution_trace.rs:150. -/
def sortNat (l : List Nat) : List Nat := l.insertionSort (· ≤ ·)

/-- The values missing between consecutive elements of a sorted list
(src/cairo/execution_trace.rs:152-161). -/
def missingValues : List Nat → List Nat
  | a :: b :: t => (if b ≠ a then List.range' (a + 1) (b - (a + 1)) else []) ++ missingValues (b :: t)
  | _ => []

/-- `get_rc_holes` (src/cairo/execution_trace.rs:136-173) on the cells of the range-checked
columns. The conversion of a representative to `u16` keeps its low 16 bits. -/
def getRcHoles (offsetColumns : List FE) : Run (List FE × Nat × Nat) :=
  let sorted := sortNat (offsetColumns.map fun x => x.val % 2 ^ 16)
  let missing := missingValues sorted
  let padding := ((missing.length + 2) / 3) * 3 - missing.length
  match sorted.head?, sorted.getLast? with
  | some first, some last =>
    .ok ((missing ++ List.replicate padding last).map (fun n : Nat => (n : FE)), first, last)
  | _, _ => .panic

/-- The rows `fill_rc_holes` appends (src/cairo/execution_trace.rs:176-185). The number of holes is
a multiple of three. -/
def rcHoleRows (nCols : Nat) : List FE → List (List FE)
  | a :: b :: c :: t =>
    (List.replicate OFF_DST 0 ++ [a, b, c] ++ List.replicate (nCols - OFF_OP1 - 1) 0)
      :: rcHoleRows nCols t
  | _ => []

/-- The `while` loop of `get_memory_holes` (src/cairo/execution_trace.rs:211-216): the addresses
from `hole` up to `addr` (exclusive) beyond the program. -/
def holesBetween (codelen : Nat) (hole addr : FE) : List FE :=
  ((List.range (addr.val - hole.val)).map fun k : Nat => hole + (k : FE)).filter
    fun h => decide (codelen < h.val)

/-- The `for` loop of `get_memory_holes` (src/cairo/execution_trace.rs:199-219). -/
def memoryHolesFrom (codelen : Nat) (prev : FE) : List FE → List FE
  | [] => []
  | addr :: t =>
    (if addr - prev ≠ 1 ∧ addr - prev ≠ 0 ∧ codelen < addr.val then
      holesBetween codelen (prev + 1) addr
    else []) ++ memoryHolesFrom codelen addr t

/-- `get_memory_holes` (src/cairo/execution_trace.rs:195-222). -/
def getMemoryHoles (sortedAddrs : List FE) (codelen : Nat) : Run (List FE) :=
  match sortedAddrs with
  | [] => .panic
  | a :: t => .ok (memoryHolesFrom codelen a (a :: t))

/-- One row of `fill_memory_holes`: the last row with the next holes in its address columns
(src/cairo/execution_trace.rs:243-254). -/
def holeRow (last : List FE) (holes : List FE) : List FE :=
  (ADDR_COLUMNS.zip holes).foldl (fun r ch => r.set ch.1 ch.2) last

/-- The rows `fill_memory_holes` appends (src/cairo/execution_trace.rs:227-255): one row per chunk of
four holes. -/
def memoryHoleRows (last : List FE) : List FE → List (List FE)
  | a :: b :: c :: d :: t => holeRow last [a, b, c, d] :: memoryHoleRows last t
  | [] => []
  | holes => [holeRow last holes]

/-- `pad_with_last_row_and_zeros` (src/cairo/execution_trace.rs:112-127): the padding row. -/
def zeroedRow (last : List FE) (zeroPadColumns : List Nat) : List FE :=
  zeroPadColumns.foldl (fun r c => r.set c 0) last

/-- `last_row` of a table (src/starks/trace.rs:83-85); panics on an empty table. -/
def lastRow (rows : List (List FE)) : Run (List FE) := Outcome.ofOptionUnwrap rows.getLast?

/-- `usize::next_power_of_two` (Rust core). Used at src/cairo/execution_trace.rs:82. -/
def nextPowerOfTwo (n : Nat) : Nat := 2 ^ Nat.clog 2 n

/-- `build_main_trace` (src/cairo/execution_trace.rs:57-87): the main trace and the updated public
inputs. -/
def buildMainTrace (states : List RegistersState) (mem : CairoMemory) (pi : PublicInputs) :
    Run (List (List FE) × PublicInputs) := do
  let exec ← buildCairoExecutionTrace states mem pi
  let nCols := exec.head?.elim 0 List.length
  let addressCols := (getCols exec ADDR_COLUMNS).insertionSort fun a b => a.val ≤ b.val
  let (rcHoles, rcMin, rcMax) ← getRcHoles (getCols exec [OFF_DST, OFF_OP0, OFF_OP1])
  let pi' := { pi with
    rangeCheckMin := some (UInt16.ofNat rcMin), rangeCheckMax := some (UInt16.ofNat rcMax) }
  let trace1 := exec ++ rcHoleRows nCols rcHoles
  let memoryHoles ← getMemoryHoles addressCols pi.publicMemory.length
  let last1 ← lastRow trace1
  let trace2 := trace1 ++ memoryHoleRows last1 memoryHoles
  let last2 ← lastRow trace2
  let trace3 := trace2 ++
    List.replicate ((pi.publicMemory.length >>> 2) + 1) (zeroedRow last2 MEMORY_COLUMNS)
  let last3 ← lastRow trace3
  let padding := nextPowerOfTwo trace3.length - trace3.length
  return (trace3 ++ List.replicate padding last3, pi')

/-! ## Public inputs of a run (src/cairo/air.rs:185-221) -/

/-- The public-memory entries read from a range of addresses (src/cairo/air.rs:197-206). -/
def publicCells (mem : CairoMemory) (start len : Nat) : Run (List (FE × FE)) :=
  mapOutcome (fun i : Nat => do
    let v ← memGet mem i
    return ((i : FE), v)) (List.range' start len)

/-- `PublicInputs::from_regs_and_mem` (src/cairo/air.rs:189-220). The hash map is given in the order
of insertion. -/
def fromRegsAndMem (states : List RegistersState) (mem : CairoMemory) (programSize : Nat)
    (segments : MemorySegmentMap) : Run PublicInputs := do
  let program ← publicCells mem 1 programSize
  let output ← (match segments.get? .output with
    | some (start, stop) => publicCells mem start (stop - start)
    | none => return [])
  let last ← Outcome.ofOptionUnwrap states.getLast?
  let first ← Outcome.ofOptionUnwrap states.head?
  return {
    pcInit := (first.pc : FE)
    apInit := (first.ap : FE)
    fpInit := (first.fp : FE)
    pcFinal := (last.pc : FE)
    apFinal := (last.ap : FE)
    rangeCheckMin := none
    rangeCheckMax := none
    memorySegments := segments
    publicMemory := insertAll (program ++ output)
    numSteps := states.length }

/-! ## Auxiliary trace (src/cairo/air.rs:475-572, 660-729) -/

/-- `get_pub_memory_addrs` (src/cairo/air.rs:500-517). The subtractions panic on underflow (debug
builds). -/
def getPubMemoryAddrs (outputRange : Option (Nat × Nat)) (len : Nat) : Run (List FE) :=
  match outputRange with
  | some (start, stop) =>
    if start ≤ stop ∧ stop - start ≤ len then
      .ok ((List.range' 1 (len - (stop - start))).map (fun n : Nat => (n : FE)) ++
        (List.range' start (stop - start)).map (fun n : Nat => (n : FE)))
    else .panic
  | none => .ok ((List.range' 1 len).map fun n : Nat => (n : FE))

/-- `add_pub_memory_in_public_input_section` (src/cairo/air.rs:475-494): the last accesses are
replaced by the public memory. -/
def addPubMemory (addresses values : List FE) (pi : PublicInputs) : Run (List FE × List FE) := do
  let len := pi.publicMemory.length
  if addresses.length < len then .panic
  else
    let addrs ← getPubMemoryAddrs (pi.memorySegments.get? .output) len
    let vals ← mapOutcome
      (fun a => (Outcome.ofOptionUnwrap (pi.publicMemory.get? a) : Run FE)) addrs
    return (addresses.take (addresses.length - len) ++ addrs,
      values.take (addresses.length - len) ++ vals)

/-- `sort_columns_by_memory_address` (src/cairo/air.rs:519-523), before the final `unzip`. `sort_by` is
stable, and so is insertion sort; a stable sort is determined by its input. -/
def sortByAddress (pairs : List (FE × FE)) : List (FE × FE) :=
  pairs.insertionSort fun x y => x.1.val ≤ y.1.val

/-- The running products `scan` produces (src/cairo/air.rs:546-551, 566-571). -/
def runningProducts (acc : FE) : List FE → List FE
  | [] => []
  | x :: t => (acc * x) :: runningProducts (acc * x) t

/-- `FieldElement::inplace_batch_inverse` (lambdaworks, external): panics on a zero.
Used at src/cairo/air.rs:540. -/
def batchInverse (l : List FE) : Run (List FE) :=
  if (0 : FE) ∈ l then .panic else .ok (l.map (·⁻¹))

/-- `generate_memory_permutation_argument_column` (src/cairo/air.rs:525-552). -/
def memoryPermutationColumn (original sorted : List (FE × FE)) (ch : RAPChallenges FE) :
    Run (List FE) := do
  let denom ← batchInverse
    (sorted.map fun e => ch.zMemory - (e.1 + ch.alphaMemory * e.2))
  return runningProducts 1 ((original.zip denom).map fun x =>
    (ch.zMemory - (x.1.1 + ch.alphaMemory * x.1.2)) * x.2)

/-- `generate_range_check_permutation_argument_column` (src/cairo/air.rs:553-572). -/
def rangeCheckPermutationColumn (original sorted : List FE) (ch : RAPChallenges FE) :
    Run (List FE) := do
  let denom ← batchInverse (sorted.map fun x => ch.zRangeCheck - x)
  return runningProducts 1 ((original.zip denom).map fun x => (ch.zRangeCheck - x.1) * x.2)

/-- `CairoAIR::build_auxiliary_trace` (src/cairo/air.rs:660-729): the 18 auxiliary cells of every
row. -/
def buildAuxiliaryTrace (pi : PublicInputs) (rows : List (List FE)) (ch : RAPChallenges FE) :
    Run (List (List FE)) := do
  let addressesOriginal := getCols rows ADDR_COLUMNS
  let valuesOriginal := getCols rows VALUE_COLUMNS
  let (addresses, values) ← addPubMemory addressesOriginal valuesOriginal pi
  let sorted := sortByAddress (addresses.zip values)
  let permutationCol ← memoryPermutationColumn (addressesOriginal.zip valuesOriginal) sorted ch
  let offsetsOriginal := getCols rows [OFF_DST, OFF_OP0, OFF_OP1]
  let offsetsSorted := (sortNat (offsetsOriginal.map fun x => x.val % 2 ^ 16)).map fun n : Nat => (n : FE)
  let rcPermutationCol ← rangeCheckPermutationColumn offsetsOriginal offsetsSorted ch
  return (List.range rows.length).map fun i =>
    (List.range 3).map (fun k => offsetsSorted.getD (3 * i + k) 0)
      ++ (List.range 4).map (fun k => (sorted.getD (4 * i + k) (0, 0)).1)
      ++ (List.range 4).map (fun k => (sorted.getD (4 * i + k) (0, 0)).2)
      ++ (List.range 4).map (fun k => permutationCol.getD (4 * i + k) 0)
      ++ (List.range 3).map (fun k => rcPermutationCol.getD (3 * i + k) 0)

end Verif.ExecTrace
