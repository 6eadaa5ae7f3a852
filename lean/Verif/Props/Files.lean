import Verif.Model.Files
import Verif.Model.Runner
import Verif.Lemmas.CairoImport
import Verif.Lemmas.Trace
import Verif.Props.CairoImport

/-!
# Files, decoding all the steps of a run, and writing dumps: C72
-/

namespace Verif.Props
open Verif.Files Spec

/-! ## Reading -/

/-- **C72.** Importing a register trace from a file: an unreadable file gives the I/O error, a length
that is not a multiple of 24 gives the other error, and every other file gives the states of its rows.
It never panics. -/
theorem C72_registers_from_file (read : String → Option Bytes) (path : String) :
    (read path = none → registersFromFile read path = .err .fileError) ∧
    (∀ bs, read path = some bs → bs.length % 24 ≠ 0 →
      registersFromFile read path = .err .incorrectNumberOfBytes) ∧
    (∀ bs, read path = some bs → bs.length % 24 = 0 →
      ∃ rows, registersFromFile read path = .ok rows ∧ rows.length = bs.length / 24 ∧
      ∀ (i : Nat) (hi : i < rows.length),
        rows[i].ap = leNat (window bs (24 * i) 8) ∧
        rows[i].fp = leNat (window bs (24 * i + 8) 8) ∧
        rows[i].pc = leNat (window bs (24 * i + 16) 8)) := by
  refine ⟨fun h => by simp [registersFromFile, h, Outcome.okOr], fun bs h hl => ?_, fun bs h hl => ?_⟩
  · simp only [registersFromFile, h, Outcome.okOr, Outcome.bind_ok]
    rw [(C10_trace_import_rejects bs).2 hl]
    rfl
  · obtain ⟨rows, h1, h2⟩ := C10_trace_import bs hl
    refine ⟨rows, ?_, h2⟩
    simp only [registersFromFile, h, Outcome.okOr, Outcome.bind_ok, h1]
    rfl

/-- **C72.** Importing a memory from a file, likewise; the imported memory has as many entries as there
are distinct addresses in the file, and it is empty exactly when the file is. -/
theorem C72_memory_from_file (read : String → Option Bytes) (path : String) :
    (read path = none → memoryFromFile read path = .err .fileError) ∧
    (∀ bs, read path = some bs → bs.length % 40 ≠ 0 →
      memoryFromFile read path = .err .incorrectNumberOfBytes) ∧
    (∀ bs, read path = some bs → bs.length % 40 = 0 →
      ∃ m, memoryFromFile read path = .ok m ∧
        (∀ addr, m.get? addr = lastValue (memoryRows bs) addr) ∧
        memoryLen m = ((memoryRows bs).map Prod.fst).toFinset.card ∧
        (memoryIsEmpty m = true ↔ bs = [])) := by
  refine ⟨fun h => by simp [memoryFromFile, h, Outcome.okOr], fun bs h hl => ?_, fun bs h hl => ?_⟩
  · simp only [memoryFromFile, h, Outcome.okOr, Outcome.bind_ok]
    rw [(C11_memory_import_rejects bs).2 hl]
    rfl
  · obtain ⟨m, h1, hwf, h2⟩ := C11_memory_import bs hl
    have hcard : memoryLen m = ((memoryRows bs).map Prod.fst).toFinset.card := by
      have e : (m.map Prod.fst).toFinset = ((memoryRows bs).map Prod.fst).toFinset := by
        ext a
        simp only [List.mem_toFinset]
        have hm : a ∈ m.map Prod.fst ↔ (m.get? a).isSome := by
          constructor
          · intro h
            obtain ⟨⟨k, v⟩, hkv, rfl⟩ := List.mem_map.1 h
            rw [HMap.get?_eq_some_of_mem hwf hkv]; rfl
          · intro h
            obtain ⟨v, hv⟩ := Option.isSome_iff_exists.1 h
            exact List.mem_map.2 ⟨_, HMap.mem_of_get?_eq_some hv, rfl⟩
        rw [hm, h2, lastValue, Option.isSome_map, List.find?_isSome]
        simp
      rw [← e, List.toFinset_card_of_nodup hwf]
      simp [memoryLen]
    refine ⟨m, ?_, h2, hcard, ?_⟩
    · simp only [memoryFromFile, h, Outcome.okOr, Outcome.bind_ok, h1]
      rfl
    · rw [memoryIsEmpty, List.isEmpty_iff_length_eq_zero]
      change memoryLen m = 0 ↔ _
      rw [hcard, Finset.card_eq_zero, List.toFinset_eq_empty_iff, List.map_eq_nil_iff]
      constructor
      · intro h0
        unfold memoryRows at h0
        rw [List.map_eq_nil_iff, List.range_eq_nil] at h0
        exact List.length_eq_zero_iff.1 (by omega)
      · rintro rfl; rfl

/-- **C72.** A file holding what the trace writer wrote is imported as the trace. -/
theorem C72_file_roundtrip (read : String → Option Bytes) (path : String)
    (rows : List RegistersState)
    (h : ∀ r ∈ rows, r.ap < 2 ^ 64 ∧ r.fp < 2 ^ 64 ∧ r.pc < 2 ^ 64)
    (hr : read path = some (writeEncodedTrace rows)) :
    registersFromFile read path = .ok rows := by
  simp only [registersFromFile, hr, Outcome.okOr, Outcome.bind_ok,
    C10_trace_import_inverts_writer rows h]
  rfl

/-! ## Decoding all the steps -/

/-- **C72.** Decoding all the steps of a run succeeds exactly when every step decodes, with one result
per step; otherwise it reports the error of the first step that does not decode. -/
theorem C72_decode_all (states : List RegistersState) (mem : CairoMemory) :
    (∀ r, MainTable.flagsAndOffsets states mem = .ok r ↔
      r.length = states.length ∧ ∀ i (h1 : i < states.length) (h2 : i < r.length),
        ExecTrace.instructionFlagsAndOffsets mem states[i] = .ok r[i]) ∧
    ∀ e, MainTable.flagsAndOffsets states mem = .err e ↔
      ∃ i, ∃ h : i < states.length, ExecTrace.instructionFlagsAndOffsets mem states[i] = .err e ∧
        ∀ j (hj : j < i), ∃ x, ExecTrace.instructionFlagsAndOffsets mem states[j] = .ok x := by
  refine ⟨fun r => ⟨mapOutcome_mem, fun h => mapOutcome_of_getElem h.1 h.2⟩, fun e => ?_⟩
  unfold MainTable.flagsAndOffsets
  induction states with
  | nil => simp [mapOutcome]
  | cons t ts ih =>
    rw [mapOutcome]
    cases ht : ExecTrace.instructionFlagsAndOffsets mem t with
    | panic =>
      simp only [Outcome.bind_panic, reduceCtorEq, false_iff, not_exists]
      rintro (_ | i) h ⟨h1, h2⟩
      · simp [ht] at h1
      · obtain ⟨x, hx⟩ := h2 0 (by omega)
        simp [ht] at hx
    | err e' =>
      simp only [Outcome.bind_err, Outcome.err.injEq]
      constructor
      · rintro rfl
        exact ⟨0, by simp, by simpa using ht, by simp⟩
      · rintro ⟨_ | i, h, h1, h2⟩
        · simpa [ht] using h1
        · obtain ⟨x, hx⟩ := h2 0 (by omega)
          simp [ht] at hx
    | ok x =>
      simp only [Outcome.bind_ok]
      have : (mapOutcome (ExecTrace.instructionFlagsAndOffsets mem) ts >>= fun bs =>
          (pure (x :: bs) : Outcome InstructionDecodingError _)) = .err e ↔
          mapOutcome (ExecTrace.instructionFlagsAndOffsets mem) ts = .err e := by
        cases mapOutcome (ExecTrace.instructionFlagsAndOffsets mem) ts <;> simp
      rw [this, ih]
      constructor
      · rintro ⟨i, h, h1, h2⟩
        refine ⟨i + 1, by simpa using h, by simpa using h1, ?_⟩
        rintro (_ | j) hj
        · exact ⟨x, by simpa using ht⟩
        · simpa using h2 j (by omega)
      · rintro ⟨_ | i, h, h1, h2⟩
        · simp [ht] at h1
        · refine ⟨i, by simpa using h, by simpa using h1, fun j hj => ?_⟩
          simpa using h2 (j + 1) (by omega)

/-! ## Writing -/

/-- **C72.** Successive writes to a file whose `write_all` appends when it succeeds: if all succeed, the
file has got exactly the concatenation of the chunks, and the writer has counted its bytes; if one
fails, the error carries the number of bytes of the earlier chunks, all of which were written. -/
theorem C72_writer {σ : Type} (writeAll : σ → Bytes → Option σ) (contents : σ → Bytes)
    (happ : ∀ s b s', writeAll s b = some s' → contents s' = contents s ++ b) (file : σ)
    (chunks : List Bytes) :
    (∀ w, (FileWriter.new file).writes writeAll chunks = .ok w →
      contents w.file = contents file ++ chunks.flatten ∧ w.bytesWritten = chunks.flatten.length) ∧
    (∀ e, (FileWriter.new file).writes writeAll chunks = .err e →
      ∃ k < chunks.length, e.index = (chunks.take k).flatten.length ∧
        ∃ s, contents s = contents file ++ (chunks.take k).flatten ∧
          writeAll s (chunks.getD k []) = none) ∧
    (FileWriter.new file).writes writeAll chunks ≠ .panic := by
  have gen : ∀ (chunks : List Bytes) (w0 : FileWriter σ),
      (∀ w, w0.writes writeAll chunks = .ok w →
        contents w.file = contents w0.file ++ chunks.flatten ∧
          w.bytesWritten = w0.bytesWritten + chunks.flatten.length) ∧
      (∀ e, w0.writes writeAll chunks = .err e →
        ∃ k < chunks.length, e.index = w0.bytesWritten + (chunks.take k).flatten.length ∧
          ∃ s, contents s = contents w0.file ++ (chunks.take k).flatten ∧
            writeAll s (chunks.getD k []) = none) ∧
      w0.writes writeAll chunks ≠ .panic := by
    intro chunks
    induction chunks with
    | nil =>
      intro w0
      simp only [FileWriter.writes, Outcome.ok.injEq, reduceCtorEq, ne_eq, not_false_eq_true,
        false_implies, implies_true, and_true]
      rintro w rfl
      simp
    | cons b bs ih =>
      intro w0
      rw [FileWriter.writes, FileWriter.write]
      cases hw : writeAll w0.file b with
      | none =>
        simp only [Outcome.okOr, Outcome.bind_err, reduceCtorEq, false_implies, implies_true,
          Outcome.err.injEq, ne_eq, not_false_eq_true, and_true, true_and]
        rintro e rfl
        exact ⟨0, by simp, by simp, w0.file, by simp, by simpa using hw⟩
      | some f =>
        simp only [Outcome.okOr, Outcome.bind_ok, Outcome.pure_eq]
        obtain ⟨h1, h2, h3⟩ := ih ⟨f, w0.bytesWritten + b.length⟩
        have hf := happ _ _ _ hw
        refine ⟨fun w h => ?_, fun e h => ?_, h3⟩
        · obtain ⟨a, c⟩ := h1 w h
          exact ⟨by rw [a, hf]; simp, by rw [c]; simp [Nat.add_assoc]⟩
        · obtain ⟨k, hk, hi, s, hs, hn⟩ := h2 e h
          exact ⟨k + 1, by simpa using hk, by rw [hi]; simp [Nat.add_assoc], s,
            by rw [hs, hf]; simp, by simpa using hn⟩
  obtain ⟨h1, h2, h3⟩ := gen chunks (FileWriter.new file)
  refine ⟨fun w h => ?_, fun e h => ?_, h3⟩
  · simpa [FileWriter.new] using h1 w h
  · simpa [FileWriter.new] using h2 e h

/-- **C72.** Different layouts have different names. -/
theorem C72_layout_names (a b : Runner.CairoLayout) (h : a.asStr = b.asStr) : a = b := by
  cases a <;> cases b <;> first | rfl | exact absurd h (by decide)

/-! ## Examples -/

/-- A file system with one register trace and one memory. -/
def files0 : String → Option Bytes := fun p =>
  if p = "trace" then some (writeEncodedTrace [⟨1, 9, 9⟩, ⟨3, 9, 10⟩])
  else if p = "memory" then some (writeEncodedMemory [none, some 5, none, some (-1)])
  else none

example : registersFromFile files0 "trace" = .ok [⟨1, 9, 9⟩, ⟨3, 9, 10⟩] ∧
    registersFromFile files0 "absent" = .err .fileError ∧
    registersFromFile files0 "memory" = .err .incorrectNumberOfBytes ∧
    memoryFromFile files0 "memory" = .ok [(1, 5), (3, -1)] := by
  decide +kernel

/-- A file that takes at most ten bytes. -/
def tenBytes (s b : Bytes) : Option Bytes := if s.length + b.length ≤ 10 then some (s ++ b) else none

example : (FileWriter.new ([] : Bytes)).writes tenBytes [[1, 2, 3], [4], [5, 6, 7, 8, 9, 10, 11]] =
    .err ⟨4⟩ ∧
    ∀ s b s', tenBytes s b = some s' → id s' = id s ++ b := by
  refine ⟨rfl, fun s b s' h => ?_⟩
  unfold tenBytes at h
  split at h
  · cases h; rfl
  · cases h

end Verif.Props
