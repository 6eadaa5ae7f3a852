import Verif.Model.Bytes
import Verif.Model.HMap

/-!
# Register trace and memory: import and export

Models `src/cairo/register_states.rs` (data, `from_bytes_le`), `src/cairo/cairo_mem.rs` and
`src/cairo/runner/vec_writer.rs`. File reading (`from_file`) is in Model/Files.lean.
-/

namespace Verif

/-- `CairoImportError` (src/cairo/errors.rs:3-9), without the I/O error. -/
inductive CairoImportError where
  | incorrectNumberOfBytes
  deriving DecidableEq, Repr

/-- `bytes[a..b]`: panics when out of range (Rust core). Used at src/cairo/cairo_mem.rs:51. -/
def slice {ε : Type} (bs : Bytes) (a b : Nat) : Outcome ε Bytes :=
  if a ≤ b ∧ b ≤ bs.length then .ok ((bs.drop a).take (b - a)) else .panic

/-- `bytes[a..a+8].try_into().unwrap()` followed by `u64::from_le_bytes`.
Used at src/cairo/cairo_mem.rs:49. -/
def sliceU64Le {ε : Type} (bs : Bytes) (a b : Nat) : Outcome ε Nat := do
  let s ← slice bs a b
  if s.length = 8 then return leNat s else .panic

/-- `RegistersState` (src/cairo/register_states.rs:8-13). -/
structure RegistersState where
  pc : Nat
  fp : Nat
  ap : Nat
  deriving DecidableEq, Repr

/-- One iteration of the row map in `from_bytes_le` (src/cairo/register_states.rs:62-74). -/
def registerRow (bs : Bytes) (i : Nat) : Outcome CairoImportError RegistersState := do
  let ap ← sliceU64Le bs (i * 24) (i * 24 + 8)
  let fp ← sliceU64Le bs (i * 24 + 8) (i * 24 + 16)
  let pc ← sliceU64Le bs (i * 24 + 16) (i * 24 + 24)
  return { ap, fp, pc }

/-- Monadic map over a list, in order (the `map(..).collect()` of the code).
See src/cairo/register_states.rs:61-74. -/
def mapOutcome {ε α β : Type} (f : α → Outcome ε β) : List α → Outcome ε (List β)
  | [] => .ok []
  | a :: as => do
    let b ← f a
    let bs ← mapOutcome f as
    return b :: bs

/-- `RegisterStates::from_bytes_le` (src/cairo/register_states.rs:51-78). -/
def registersFromBytesLe (bs : Bytes) : Outcome CairoImportError (List RegistersState) :=
  if bs.length % 24 ≠ 0 then .err .incorrectNumberOfBytes
  else mapOutcome (registerRow bs) (List.range (bs.length / 24))

/-- `VecWriter::write_encoded_trace` (src/cairo/runner/vec_writer.rs:27-39). The trace entry of
cairo-vm (external) is a register triple. -/
def writeEncodedTrace (rows : List RegistersState) : Bytes :=
  rows.flatMap fun r => leBytes 8 r.ap ++ leBytes 8 r.fp ++ leBytes 8 r.pc

/-- `CairoMemory` (src/cairo/cairo_mem.rs:11-14). -/
abbrev CairoMemory := HMap Nat FE

/-- One iteration of the row loop (src/cairo/cairo_mem.rs:46-57): address and value. -/
def memoryRow (bs : Bytes) (i : Nat) : Outcome CairoImportError (Nat × FE) := do
  let address ← sliceU64Le bs (i * 40) (i * 40 + 8)
  let v ← slice bs (i * 40 + 8) (i * 40 + 40)
  let value ← Outcome.ofOptionUnwrap (feFromBytesLe v)
  return (address, value)

/-- `CairoMemory::from_bytes_le` (src/cairo/cairo_mem.rs:35-61). Reading all rows before inserting
them is equivalent, as insertion cannot fail. -/
def memoryFromBytesLe (bs : Bytes) : Outcome CairoImportError CairoMemory :=
  if bs.length % 40 ≠ 0 then .err .incorrectNumberOfBytes
  else do
    let rows ← mapOutcome (memoryRow bs) (List.range (bs.length / 40))
    return rows.foldl (fun m e => m.insert e.1 e.2) []

/-- `VecWriter::write_encoded_memory` (src/cairo/runner/vec_writer.rs:46-57), from the address `i`
on. A relocated memory cell of cairo-vm (external) is an optional field element, whose
`to_le_bytes` is 32 bytes of the canonical representative. -/
def writeEncodedMemoryFrom : Nat → List (Option FE) → Bytes
  | _, [] => []
  | i, none :: cells => writeEncodedMemoryFrom (i + 1) cells
  | i, some v :: cells => leBytes 8 i ++ feToBytesLe v ++ writeEncodedMemoryFrom (i + 1) cells

/-- `VecWriter::write_encoded_memory` (src/cairo/runner/vec_writer.rs:46-57). -/
def writeEncodedMemory (cells : List (Option FE)) : Bytes := writeEncodedMemoryFrom 0 cells

end Verif
