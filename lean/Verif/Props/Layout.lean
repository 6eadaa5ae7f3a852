import Verif.Lemmas.Layout
import Verif.Props.MainTable

/-!
# Which runs are laid out as traces: C95
-/

namespace Verif.Props
open Verif.ExecTrace Verif.CairoAir Verif.Spec

/-- A call that returns no error ends with a result or a panic. -/
theorem panic_iff_not_ok {α : Type} {x : Run α} : x = .panic ↔ ¬ ∃ a, x = .ok a := by
  cases x with
  | ok a => simp
  | err e => exact e.elim
  | panic => simp

/-- **C95**, one step: the cells of a step are obtained exactly when there is an instruction at `pc` whose flags are
those of an instruction, the return address of a call has 64 bits and the memory holds the three operands; otherwise
the call panics. The registers and the memory are arbitrary: they need not come from a run of the machine. -/
theorem C95_step_exactly (mem : CairoMemory) (t : RegistersState) :
    ((∃ cells, stepCells mem t = .ok cells) ↔ StepLaidOut mem t) ∧
      (stepCells mem t = .panic ↔ ¬ StepLaidOut mem t) :=
  ⟨stepCells_iff, panic_iff_not_ok.trans (not_congr stepCells_iff)⟩

/-- **C95**, main trace: for every register trace, memory and public inputs, a main trace is built exactly when there
is a step, every step can be laid out, and the cells of the range-check segment are in the memory; otherwise the call
panics. Nothing else that the construction does (filling holes, padding, adding the public memory) can fail. -/
theorem C95_main_trace_exactly (states : List RegistersState) (mem : CairoMemory) (pi : PublicInputs) :
    ((∃ t pi', MainTable.buildMainTrace states mem pi = .ok (t, pi')) ↔ RunLaidOut states mem pi.memorySegments) ∧
      (MainTable.buildMainTrace states mem pi = .panic ↔ ¬ RunLaidOut states mem pi.memorySegments) := by
  have h : (∃ r, MainTable.buildMainTrace states mem pi = .ok r) ↔ RunLaidOut states mem pi.memorySegments := by
    rw [← main_iff, C71_columns_are_rows]
    cases buildMainTrace states mem pi <;> simp
  refine ⟨?_, panic_iff_not_ok.trans (not_congr h)⟩
  rw [← h]
  simp only [Prod.exists]

/-- **C95**, auxiliary trace: for every main trace of 34 columns or more, public inputs and challenges, the auxiliary
trace is built exactly when the accesses have room for the public memory, the output segment is a range that is no
longer than it, every public address has a value, and no access, public cell or offset makes a factor of the
denominators zero; otherwise the call panics. -/
theorem C95_auxiliary_exactly (pi : PublicInputs) (rows : List (List FE)) (w : Nat) (hw : 34 ≤ w)
    (hrows : ∀ r ∈ rows, r.length = w) (ch : RAPChallenges FE) :
    ((∃ t, MainTable.buildAuxiliaryTrace pi ⟨rows.flatten, w⟩ ch = .ok t) ↔ AuxLaidOut pi rows ch) ∧
      (MainTable.buildAuxiliaryTrace pi ⟨rows.flatten, w⟩ ch = .panic ↔ ¬ AuxLaidOut pi rows ch) := by
  have h : (∃ t, MainTable.buildAuxiliaryTrace pi ⟨rows.flatten, w⟩ ch = .ok t) ↔ AuxLaidOut pi rows ch := by
    rw [← aux_iff, C71_auxiliary pi rows w hw hrows ch]
    cases buildAuxiliaryTrace pi rows ch <;> simp
  exact ⟨h, panic_iff_not_ok.trans (not_congr h)⟩

/-- **C95**, challenges: when the public memory fits, only few challenges prevent the auxiliary trace. For every
challenge `alphaMemory` there are at most four values of `zMemory` for a row, and at most three values of
`zRangeCheck` for a row. -/
theorem C95_few_challenges (pi : PublicInputs) (rows : List (List FE))
    (hroom : pi.publicMemory.length ≤ 4 * rows.length)
    (hseg : ∀ s e, pi.memorySegments.get? .output = some (s, e) → s ≤ e ∧ e - s ≤ pi.publicMemory.length)
    (hcells : ∀ n ∈ publicAddresses pi.publicMemory.length (pi.memorySegments.get? .output),
      ∃ v, pi.publicMemory.get? (n : FE) = some v) :
    ∃ (badMemory : FE → Finset FE) (badOffsets : Finset FE),
      (∀ alpha, (badMemory alpha).card ≤ 4 * rows.length) ∧ badOffsets.card ≤ 3 * rows.length ∧
      ∀ ch : RAPChallenges FE, AuxLaidOut pi rows ch ↔
        ch.zMemory ∉ badMemory ch.alphaMemory ∧ ch.zRangeCheck ∉ badOffsets := by
  have hlen : (publicAddresses pi.publicMemory.length (pi.memorySegments.get? .output)).length =
      pi.publicMemory.length := by
    cases h : pi.memorySegments.get? .output with
    | none => simp [publicAddresses]
    | some r =>
      have := hseg r.1 r.2 h
      simp only [publicAddresses, List.length_append, List.length_range']
      omega
  let access (alpha : FE) (j : Nat) : FE :=
    (rows.getD (j / 4) []).getD (19 + j % 4) 0 + alpha * (rows.getD (j / 4) []).getD (23 + j % 4) 0
  let cell (alpha : FE) (n : Nat) : FE := n + alpha * (pi.publicMemory.get? (n : FE)).getD 0
  refine ⟨fun alpha => ((List.range (4 * rows.length - pi.publicMemory.length)).map (access alpha) ++
      (publicAddresses pi.publicMemory.length (pi.memorySegments.get? .output)).map (cell alpha)).toFinset,
    (rows.flatMap fun r => (List.range 3).map fun k =>
      (((r.getD (27 + k) 0).val % 2 ^ 16 : Nat) : FE)).toFinset, fun alpha => ?_, ?_, fun ch => ?_⟩
  · refine (List.toFinset_card_le _).trans ?_
    rw [List.length_append, List.length_map, List.length_map, List.length_range, hlen]
    omega
  · refine (List.toFinset_card_le _).trans ?_
    rw [List.length_flatMap]
    simp [mul_comm]
  · simp only [List.mem_toFinset, List.mem_append, List.mem_map, List.mem_range, List.mem_flatMap, not_or,
      not_exists, not_and]
    constructor
    · intro h
      refine ⟨⟨fun j hj he => h.accesses j hj he.symm, fun n hn he => ?_⟩, fun r hr k hk he => h.offsets r hr k hk he.symm⟩
      obtain ⟨v, hv, hne⟩ := h.cells n hn
      refine hne (he.symm.trans ?_)
      simp only [cell, hv, Option.getD_some]
    · rintro ⟨⟨h1, h2⟩, h3⟩
      refine ⟨hroom, hseg, fun n hn => ?_, fun j hj he => h1 j hj he.symm, fun r hr k hk he => h3 r hr k hk he.symm⟩
      obtain ⟨v, hv⟩ := hcells n hn
      refine ⟨v, hv, fun he => h2 n hn ?_⟩
      simp only [cell, hv, Option.getD_some]
      exact he.symm

/-- The hypotheses hold for the run of `simple_program`. -/
example : Examples.main0.2.publicMemory.length = 5 ∧ Examples.main0.1.length = 8 ∧
    Examples.main0.2.memorySegments.get? .output = none ∧
    ∀ n ∈ publicAddresses 5 none, ∃ v, Examples.main0.2.publicMemory.get? (n : FE) = some v := by
  refine ⟨by decide +kernel, by decide +kernel, by decide +kernel, fun n hn => ?_⟩
  rw [← Option.isSome_iff_exists]
  revert n
  decide +kernel

/-- **C95**: every run of the Cairo machine whose builtin values are in the memory is laid out. -/
theorem C95_honest_runs {mem : CairoMemory} {m : FE → FE} {states : List RegistersState}
    (run : HonestRun mem m states) (segments : MemorySegmentMap) (hb : BuiltinValues mem segments) :
    RunLaidOut states mem segments := by
  obtain ⟨rows, pi', h⟩ := main_exists (pi := { Examples.pi0 with memorySegments := segments }) run hb
  exact main_iff.1 ⟨_, h⟩

/-- The run of `simple_program` is laid out; without its steps, without a cell of the memory that it reads, and with
a range-check segment that the memory does not have it is not. -/
example : RunLaidOut Examples.states Examples.mem [] ∧ ¬ RunLaidOut [] Examples.mem [] ∧
    ¬ RunLaidOut Examples.states (Examples.mem.drop 1) [] ∧
    ¬ RunLaidOut Examples.states Examples.mem [(.rangeCheck, (1000, 1001))] := by
  refine ⟨(exec_iff (pi := Examples.pi0)).1 (Outcome.isOk_iff.1 (by decide +kernel)), fun h => h.1 rfl, fun h => ?_,
    fun h => ?_⟩
  · have := Outcome.isOk_iff.2 ((exec_iff (pi := Examples.pi0)).2 h)
    revert this
    decide +kernel
  · obtain ⟨v, hv⟩ := h.2.2 1000 1001 rfl 1000 le_rfl (by decide)
    revert hv
    have : Examples.mem.get? 1000 = none := by decide +kernel
    rw [this]
    exact nofun

/-- Its auxiliary trace is laid out for the challenges of the examples, but not when the challenge of the range
checks is an offset, nor when the public memory has more cells than there are accesses. -/
example : AuxLaidOut Examples.main0.2 Examples.main0.1 Examples.ch0 ∧
    ¬ AuxLaidOut Examples.main0.2 Examples.main0.1 { Examples.ch0 with zRangeCheck := 32768 } ∧
    ¬ AuxLaidOut Examples.main0.2 [] Examples.ch0 := by
  refine ⟨aux_iff.1 ⟨_, Examples.aux0_eq⟩, fun h => ?_, fun h => ?_⟩
  · have := Outcome.isOk_iff.2 (aux_iff.2 h)
    revert this
    decide +kernel
  · have := h.room
    revert this
    decide +kernel

end Verif.Props
