import Verif.Model.MainTable

/-!
# Files: importing register traces and memories, and the writer of encoded dumps

Models `from_file` of `src/cairo/register_states.rs` and `src/cairo/cairo_mem.rs`, the remaining
accessors of `CairoMemory`, and `src/cairo/runner/file_writer.rs`. The file system is a parameter:
`read path` is the contents of a readable file, or `none` when `fs::read` fails. The file behind
`BufWriter` is a parameter as well: an arbitrary state with a `write_all` that may fail.
-/

namespace Verif.Files

/-- `CairoImportError` (src/cairo/errors.rs:3-9), with the I/O error and without its payload. -/
inductive ImportError where
  | incorrectNumberOfBytes
  | fileError
  deriving DecidableEq, Repr

/-- An error of `from_bytes_le` as an error of `from_file`: the type is the same in the code.
See src/cairo/cairo_mem.rs:63-66. -/
def ofImport {α : Type} : Outcome CairoImportError α → Outcome ImportError α
  | .ok a => .ok a
  | .err .incorrectNumberOfBytes => .err .incorrectNumberOfBytes
  | .panic => .panic

/-- `RegisterStates::from_file` (src/cairo/register_states.rs:80-83). -/
def registersFromFile (read : String → Option Bytes) (path : String) :
    Outcome ImportError (List RegistersState) := do
  let data ← Outcome.okOr (read path) .fileError
  ofImport (registersFromBytesLe data)

/-- `CairoMemory::from_file` (src/cairo/cairo_mem.rs:63-66). -/
def memoryFromFile (read : String → Option Bytes) (path : String) :
    Outcome ImportError CairoMemory := do
  let data ← Outcome.okOr (read path) .fileError
  ofImport (memoryFromBytesLe data)

/-- `CairoMemory::len` (src/cairo/cairo_mem.rs:27-29): the number of entries of the map. -/
def memoryLen (m : CairoMemory) : Nat := m.length

/-- `CairoMemory::is_empty` (src/cairo/cairo_mem.rs:31-33). -/
def memoryIsEmpty (m : CairoMemory) : Bool := m.isEmpty

/-- `FileWriter` (src/cairo/runner/file_writer.rs:4-7) over a file with states `σ`. -/
structure FileWriter (σ : Type) where
  file : σ
  bytesWritten : Nat

/-- `EncodeError::Io` (bincode, external) without the inner error: the index it carries.
Used at src/cairo/runner/file_writer.rs:13-16. -/
structure EncodeError where
  index : Nat
  deriving DecidableEq, Repr

/-- `FileWriter::new` (src/cairo/runner/file_writer.rs:25-30). -/
def FileWriter.new {σ : Type} (file : σ) : FileWriter σ := ⟨file, 0⟩

/-- `FileWriter::write` (src/cairo/runner/file_writer.rs:10-21). `writeAll` is that of the buffered
file. -/
def FileWriter.write {σ : Type} (writeAll : σ → Bytes → Option σ) (w : FileWriter σ) (bytes : Bytes) :
    Outcome EncodeError (FileWriter σ) := do
  let file ← Outcome.okOr (writeAll w.file bytes) ⟨w.bytesWritten⟩
  return ⟨file, w.bytesWritten + bytes.length⟩

/-- Successive writes, stopping at the first error, as an encoder does (`?` after every write). Not a
definition of the code: it is how the writer is used. See src/cairo/runner/file_writer.rs:10-21. -/
def FileWriter.writes {σ : Type} (writeAll : σ → Bytes → Option σ) :
    FileWriter σ → List Bytes → Outcome EncodeError (FileWriter σ)
  | w, [] => .ok w
  | w, b :: bs => do
    let w ← w.write writeAll b
    FileWriter.writes writeAll w bs

end Verif.Files
