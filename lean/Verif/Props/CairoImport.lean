import Verif.Lemmas.CairoImport

/-!
# Property theorems C10, C11: importing register traces and memory dumps
-/

namespace Verif
namespace Props
open Spec

/-- **C10.** A byte string whose length is a multiple of 24 is imported as one register state per
24-byte row: `ap`, `fp`, `pc`, little-endian, in order. -/
theorem C10_trace_import (bs : Bytes) (h : bs.length % 24 = 0) :
    ∃ rows, registersFromBytesLe bs = .ok rows ∧ rows.length = bs.length / 24 ∧
      ∀ (i : Nat) (hi : i < rows.length),
        rows[i].ap = leNat (window bs (24 * i) 8) ∧
        rows[i].fp = leNat (window bs (24 * i + 8) 8) ∧
        rows[i].pc = leNat (window bs (24 * i + 16) 8) := by
  refine ⟨_, registersFromBytesLe_ok bs h, by simp, ?_⟩
  intro i hi
  simp

/-- **C10.** Exactly the lengths that are not a multiple of 24 are rejected; there is no panic. -/
theorem C10_trace_import_rejects (bs : Bytes) :
    registersFromBytesLe bs = .err .incorrectNumberOfBytes ↔ bs.length % 24 ≠ 0 := by
  constructor
  · intro h hc
    rw [registersFromBytesLe_ok bs hc] at h
    cases h
  · intro h; simp [registersFromBytesLe, h]

/-- **C10.** Importing what the trace writer wrote returns the trace. -/
theorem C10_trace_import_inverts_writer (rows : List RegistersState)
    (h : ∀ r ∈ rows, r.ap < 2 ^ 64 ∧ r.fp < 2 ^ 64 ∧ r.pc < 2 ^ 64) :
    registersFromBytesLe (writeEncodedTrace rows) = .ok rows :=
  registers_roundtrip rows h

example : ∀ r ∈ [(⟨1, 9, 9⟩ : RegistersState), ⟨3, 9, 10⟩],
    r.ap < 2 ^ 64 ∧ r.fp < 2 ^ 64 ∧ r.pc < 2 ^ 64 := by decide

example : (writeEncodedTrace [⟨1, 9, 9⟩, ⟨3, 9, 10⟩]).length % 24 = 0 := by decide

/-- **C11.** A memory dump whose length is a multiple of 40 is imported as the map sending each
address to the value of the last row that mentions it, and nothing else; no key occurs twice. -/
theorem C11_memory_import (bs : Bytes) (h : bs.length % 40 = 0) :
    ∃ m, memoryFromBytesLe bs = .ok m ∧ m.WF ∧
      ∀ addr, m.get? addr = lastValue (memoryRows bs) addr := by
  refine ⟨(memoryRows bs).foldl (fun m e => m.insert e.1 e.2) [], ?_, ?_, ?_⟩
  · simp [memoryFromBytesLe, h, memoryRows_ok]
  · exact HMap.WF.foldl_insert _ _ (by simp [HMap.WF])
  · intro addr
    rw [get?_foldl_insert]
    simp [HMap.get?]

/-- **C11.** Exactly the lengths that are not a multiple of 40 are rejected; there is no panic. -/
theorem C11_memory_import_rejects (bs : Bytes) :
    memoryFromBytesLe bs = .err .incorrectNumberOfBytes ↔ bs.length % 40 ≠ 0 := by
  constructor
  · intro h hc
    simp [memoryFromBytesLe, hc, memoryRows_ok] at h
  · intro h; simp [memoryFromBytesLe, h]

/-- **C11.** Importing what the memory writer wrote returns exactly the defined cells: address `i`
maps to the value of cell `i`. -/
theorem C11_memory_import_inverts_writer (cells : List (Option FE)) (h : cells.length ≤ 2 ^ 64) :
    ∃ m, memoryFromBytesLe (writeEncodedMemory cells) = .ok m ∧
      ∀ addr, m.get? addr = (cells[addr]?).join := by
  obtain ⟨m, h1, _, h2⟩ := C11_memory_import (writeEncodedMemory cells)
    (length_writeEncodedMemoryFrom 0 cells)
  refine ⟨m, h1, fun addr => ?_⟩
  rw [h2, writeEncodedMemory, lastValue_writeEncodedMemoryFrom 0 cells (by omega)]
  simp

example : ([none, some 5, none, some (-1)] : List (Option FE)).length ≤ 2 ^ 64 := by decide

/-- Overwriting really happens: of two rows with the same address the last one wins. -/
example : ∃ bs : Bytes, bs.length % 40 = 0 ∧ memoryRows bs = [(3, 5), (3, 7)] ∧
    lastValue (memoryRows bs) 3 = some 7 := by
  refine ⟨leBytes 8 3 ++ feToBytesLe 5 ++ (leBytes 8 3 ++ feToBytesLe 7 ++ []), by simp, ?_, ?_⟩ <;>
  rw [memoryRows_cons _ _ (by norm_num), memoryRows_cons _ _ (by norm_num)] <;>
  simp [memoryRows, lastValue]

end Props
end Verif
