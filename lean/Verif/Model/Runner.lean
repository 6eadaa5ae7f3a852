import Verif.Model.CairoImport
import Verif.Model.ExecutionTrace
import Verif.Model.Trace

/-!
# Running a program and preparing the prover's arguments

Models `src/cairo/runner/run.rs:37-279` and the layout names of `src/cairo/cairo_layout.rs`. The virtual
machine (cairo-vm, external) is a parameter: what it leaves behind is a `VmRun`.
-/

namespace Verif.Runner

/-- `CairoVersion` (src/cairo/runner/run.rs:39-42). -/
inductive CairoVersion where
  | v0
  | v1
  deriving DecidableEq, Repr

/-- `CairoLayout` (src/cairo/cairo_layout.rs:1-13). Only `plain` and `small` are ever passed to
`run_program`. -/
inductive CairoLayout where
  | plain
  | small
  | dex
  | recursive
  | starknet
  | starknetWithKeccak
  | recursiveLargeOutput
  | allCairo
  | allSolidity
  | dynamic
  deriving DecidableEq, Repr

/-- `CairoLayout::as_str` (src/cairo/cairo_layout.rs:16-29): the name given to the virtual machine. -/
def CairoLayout.asStr : CairoLayout → String
  | .plain => "plain"
  | .small => "small"
  | .dex => "dex"
  | .recursive => "recursive"
  | .starknet => "starknet"
  | .starknetWithKeccak => "starknet_with_keccak"
  | .recursiveLargeOutput => "recursive_large_output"
  | .allCairo => "all_cairo"
  | .allSolidity => "all_solidity"
  | .dynamic => "dynamic"

/-- `Error` (src/cairo/runner/run.rs:23-35), without the payloads. -/
inductive RunError where
  | runner
  | trace
  deriving DecidableEq, Repr

/-- What `run_program` reads from the virtual machine after a run (src/cairo/runner/run.rs:194-227):
`vm.get_relocated_trace()` (`none` for its error), `runner.relocated_memory`,
`runner.get_program().data_len()`, `vm.get_range_check_builtin()` with its
`get_memory_segment_addresses()` (`none` when there is no such builtin), and `vm.get_segment_size`. -/
structure VmRun where
  relocatedTrace : Option (List RegistersState)
  relocatedMemory : List (Option FE)
  dataLen : Nat
  rangeCheckBuiltin : Option (Nat × Option Nat)
  segmentSize : Nat → Option Nat

/-- The virtual machine: running the function `main` of a program of the given version with a layout
(src/cairo/runner/run.rs:71-192). An error of the version 0 runner is returned; the version 1 branch
unwraps everything, so its failures are panics. -/
abbrev Vm := CairoVersion → CairoLayout → Bytes → Outcome RunError VmRun

/-- The range of the range-check segment (src/cairo/runner/run.rs:216-232). The additions of `usize` are
those of natural numbers: overflow is not modelled. -/
def rangeCheckRange (r : VmRun) : Option (Nat × Nat) :=
  r.rangeCheckBuiltin.map fun (idx, stopOffset) =>
    let base := (List.range idx).foldl (fun acc i => acc + (r.segmentSize i).getD 0) 1
    (base, base + stopOffset.getD 0)

/-- `run_program` (src/cairo/runner/run.rs:64-240): trace and memory go through their byte encodings. -/
def runProgram (vm : Vm) (layout : CairoLayout) (program : Bytes) (version : CairoVersion) :
    Outcome RunError (List RegistersState × CairoMemory × Nat × Option (Nat × Nat)) := do
  let r ← vm version layout program
  let trace ← Outcome.okOr r.relocatedTrace RunError.trace
  let traceVec := writeEncodedTrace trace
  let memoryVec := writeEncodedMemory r.relocatedMemory
  let mem ← (memoryFromBytesLe memoryVec).unwrapErr
  let states ← (registersFromBytesLe traceVec).unwrapErr
  return (states, mem, r.dataLen, rangeCheckRange r)

/-- `create_memory_segment_map` (src/cairo/runner/run.rs:265-279). -/
def createMemorySegmentMap (rangeCheck output : Option (Nat × Nat)) : MemorySegmentMap :=
  let segs : MemorySegmentMap := []
  let segs := match rangeCheck with
    | some r => segs.insert .rangeCheck r
    | none => segs
  match output with
    | some r => segs.insert .output r
    | none => segs

/-- The layout of a version (src/cairo/runner/run.rs:247-250). -/
def layoutOf : CairoVersion → CairoLayout
  | .v0 => .small
  | .v1 => .plain

/-- `generate_prover_args` (src/cairo/runner/run.rs:242-263): the main trace as a table, and the public
inputs. -/
def generateProverArgs (vm : Vm) (program : Bytes) (version : CairoVersion)
    (outputRange : Option (Nat × Nat)) : Outcome RunError (TraceTable FE × PublicInputs) := do
  let (states, mem, size, rangeCheck) ← runProgram vm (layoutOf version) program version
  let segments := createMemorySegmentMap rangeCheck outputRange
  let pi ← (ExecTrace.fromRegsAndMem states mem size segments).unwrapErr
  let (main, pi) ← (ExecTrace.buildMainTrace states mem pi).unwrapErr
  return (⟨main.flatten, (main.headD []).length⟩, pi)

end Verif.Runner
