import Verif.Lemmas.Width
import Verif.Props.ReleaseProver
import Verif.Props.Claim
import Verif.Props.HonestGap

/-!
# C83: proving what a program outputs

`generate_prover_args` takes the range of addresses that a program wrote its output to. The command line passes none;
a user of the library passes one to make the output a part of the claim.
-/

namespace Verif.Props
open Runner Spec ExecTrace CairoAir TraceTable
variable {T : Type} {env : Env FE T}

theorem segments_output (rc : Option (Nat × Nat)) (range : Nat × Nat) :
    (createMemorySegmentMap rc (some range)).get? .output = some range ∧
    (createMemorySegmentMap rc (some range)).get? .rangeCheck = rc ∧
    createMemorySegmentMap rc (some range) ≠ [] := by
  cases rc with
  | none => exact ⟨rfl, rfl, by simp [createMemorySegmentMap, HMap.insert]⟩
  | some r => exact ⟨rfl, rfl, by simp [createMemorySegmentMap, HMap.insert]⟩

/-- The used cells of the range-check segment hold values below `2^128`. -/
theorem builtin_values {r : VmRun} {m : FE → FE} {states : List RegistersState} (honest : HonestVmRun r m states)
    {mem : CairoMemory} (hmem : MemoryOf r mem) {segs : MemorySegmentMap}
    (hrc : segs.get? .rangeCheck = rangeCheckRange r) : BuiltinValues mem segs := by
  have hspec := rangeCheckRange_spec r
  intro s e hse n hs he
  rw [hrc] at hse
  cases hb : r.rangeCheckBuiltin with
  | none => rw [hspec.1 hb] at hse; cases hse
  | some x =>
    obtain ⟨idx, stop⟩ := x
    rw [hspec.2 idx stop hb] at hse
    obtain ⟨rfl, rfl⟩ := Prod.mk.inj (Option.some.inj hse)
    obtain ⟨v, h4, h5⟩ := honest.builtin idx stop hb n hs he
    exact ⟨v, (hmem n).trans h4, h5⟩

/-- What is known about the arguments made for an honest run with an output range. -/
theorem output_args {vm : Vm} {version : CairoVersion} {program : Bytes} {r : VmRun}
    (hvm : vm version (layoutOf version) program = .ok r) {m : FE → FE} {states : List RegistersState}
    (honest : HonestVmRun r m states) {range : Nat × Nat} {tab : TraceTable FE} {pi : PublicInputs}
    (hargs : generateProverArgs vm program version (some range) = .ok (tab, pi)) :
    ∃ mem pi0 main, MemoryOf r mem ∧ HonestRun mem m states ∧
      fromRegsAndMem states mem r.dataLen (createMemorySegmentMap (rangeCheckRange r) (some range)) = .ok pi0 ∧
      buildMainTrace states mem pi0 = .ok (main, pi) ∧ tab = ⟨main.flatten, (main.headD []).length⟩ := by
  obtain ⟨states', mem, size, rc, pi0, main, h1, h2, h3, rfl⟩ := generateProverArgs_ok hargs
  obtain ⟨mem', h1', hmem⟩ := runProgram_ok hvm honest.toMachineRun
  rw [h1] at h1'
  simp only [Outcome.ok.injEq, Prod.mk.injEq] at h1'
  obtain ⟨rfl, rfl, rfl, rfl⟩ := h1'
  obtain ⟨mem0, hmem0, run⟩ := honest.run
  exact ⟨mem, pi0, main, hmem, HonestRun.same run fun a => (hmem a).trans (hmem0 a).symm, h2, h3, rfl⟩

/-- **C83**: for every honest run and every range of addresses, the prover's arguments with this output range can be
built if the cells of the program and of the range hold values; otherwise building them panics. -/
theorem C83_output_args {vm : Vm} {version : CairoVersion} {layout : CairoLayout} (hl : LayoutFor version layout)
    {program : Bytes} {r : VmRun} (hvm : vm version layout program = .ok r) {m : FE → FE}
    {states : List RegistersState} (honest : HonestVmRun r m states) (s e : Nat) :
    ((∀ n, (1 ≤ n ∧ n ≤ r.dataLen) ∨ (s ≤ n ∧ n < e) → (r.relocatedMemory[n]?).join ≠ none) →
      ∃ tab pi, generateProverArgs vm program version (some (s, e)) = .ok (tab, pi)) ∧
    ((¬ ∀ n, (1 ≤ n ∧ n ≤ r.dataLen) ∨ (s ≤ n ∧ n < e) → (r.relocatedMemory[n]?).join ≠ none) →
      generateProverArgs vm program version (some (s, e)) = .panic) := by
  obtain rfl := layoutFor_eq hl
  obtain ⟨mem, h1, hmem⟩ := runProgram_ok hvm honest.toMachineRun
  obtain ⟨mem0, hmem0, run0⟩ := honest.run
  have run := HonestRun.same run0 fun a => (hmem a).trans (hmem0 a).symm
  obtain ⟨ho, hrcs, -⟩ := segments_output (rangeCheckRange r) (s, e)
  have hpub : (states ≠ [] ∧ ∀ n, IsPublic r.dataLen (createMemorySegmentMap (rangeCheckRange r) (some (s, e))) n →
      mem.get? n ≠ none) ↔
      ∀ n, (1 ≤ n ∧ n ≤ r.dataLen) ∨ (s ≤ n ∧ n < e) → (r.relocatedMemory[n]?).join ≠ none := by
    unfold IsPublic
    rw [ho]
    constructor
    · rintro ⟨-, h⟩ n hn
      rw [← hmem n]
      refine h n (hn.imp id fun h => ⟨s, e, rfl, h⟩)
    · refine fun h => ⟨run.nonempty, fun n hn => ?_⟩
      rw [hmem n]
      refine h n (hn.imp id ?_)
      rintro ⟨s', e', h, h'⟩
      cases h; exact h'
  obtain ⟨hex, hpanic⟩ := C63_public_inputs_total states mem r.dataLen
    (createMemorySegmentMap (rangeCheckRange r) (some (s, e)))
  rw [hpub] at hex hpanic
  constructor
  · intro h
    obtain ⟨pi, hpi⟩ := hex.2 h
    obtain ⟨-, -, -, -, -, -, -, -, -, hms⟩ := fromRegsAndMem_regs hpi
    obtain ⟨rows, pi', hrows⟩ := main_exists run (pi := pi) (by rw [hms]; exact builtin_values honest hmem hrcs)
    refine ⟨⟨rows.flatten, (rows.headD []).length⟩, pi', ?_⟩
    simp only [generateProverArgs, h1, Outcome.bind_ok, hpi, hrows, Outcome.unwrapErr, Outcome.pure_eq]
  · intro h
    simp only [generateProverArgs, h1, Outcome.bind_ok, hpanic h, Outcome.unwrapErr, Outcome.bind_panic]

/-- **C83**: for an honest run and an output range after the program, the public inputs describe the run: the first and
last registers, the number of steps, the range of the offsets, and as public memory exactly the cells of the program
and of the range, each once, with the values that the virtual machine left there. -/
theorem C83_output_claim {vm : Vm} {version : CairoVersion} {layout : CairoLayout} (hl : LayoutFor version layout)
    {program : Bytes} {r : VmRun} (hvm : vm version layout program = .ok r) {m : FE → FE}
    {states : List RegistersState} (honest : HonestVmRun r m states) {s e : Nat} (hs : r.dataLen < s) (hse : s ≤ e)
    (he : e < 2 ^ 64) {tab : TraceTable FE} {pi : PublicInputs}
    (hargs : generateProverArgs vm program version (some (s, e)) = .ok (tab, pi)) :
    (∃ mem segs, MemoryOf r mem ∧ DescribesRun pi mem m states r.dataLen segs ∧ segs.get? .output = some (s, e)) ∧
    (∀ a v, (a, v) ∈ pi.publicMemory ↔ ∃ n : Nat, a = (n : FE) ∧ ((1 ≤ n ∧ n ≤ r.dataLen) ∨ (s ≤ n ∧ n < e)) ∧
      (r.relocatedMemory[n]?).join = some v) := by
  obtain rfl := layoutFor_eq hl
  obtain ⟨mem, pi0, main, hmem, run, hpi, hmain, rfl⟩ := output_args hvm honest hargs
  obtain ⟨ho, -⟩ := segments_output (rangeCheckRange r) (s, e)
  have D := C63_public_inputs_describe_run run hpi honest.size
    (by intro s' e' h; rw [ho] at h; cases h; exact ⟨hs, hse, he⟩) hmain
  refine ⟨⟨mem, _, hmem, D, ho⟩, fun a v => ?_⟩
  rw [D.cells]
  refine exists_congr fun n => and_congr_right fun _ => ?_
  rw [and_comm, hmem n]
  refine and_congr_left fun _ => ?_
  unfold IsPublic
  rw [ho]
  refine or_congr Iff.rfl ⟨?_, fun h => ⟨s, e, rfl, h⟩⟩
  rintro ⟨s', e', h, h'⟩
  cases h; exact h'

/-- **C83** is false without the range-check builtin: for every run of such a program, every output range, every hash
function and all options with a power of two as blow-up factor, `generate_cairo_proof` panics. (The trace has nine
columns fewer than the constraints read, because the presence of any segment is taken for that of the range-check
segment.) -/
theorem C83_output_needs_range_check {vm : Vm} {version : CairoVersion} {layout : CairoLayout}
    (hl : LayoutFor version layout) {program : Bytes} {r : VmRun} (hvm : vm version layout program = .ok r)
    (hrc : r.rangeCheckBuiltin = none) {m : FE → FE} {states : List RegistersState} (honest : HonestVmRun r m states)
    {range : Nat × Nat} {tab : TraceTable FE} {pi : PublicInputs}
    (hargs : generateProverArgs vm program version (some range) = .ok (tab, pi))
    {options : ProofOptions} {b : Nat} (hbl : options.blowupFactor.toNat = 2 ^ b) :
    generateCairoProof env tab pi options = .panic := by
  obtain rfl := layoutFor_eq hl
  obtain ⟨mem, pi0, main, hmem, run, hpi, hmain, rfl⟩ := output_args hvm honest hargs
  obtain ⟨ho, hrcs, hne⟩ := segments_output (rangeCheckRange r) range
  rw [(rangeCheckRange_spec r).1 hrc] at hrcs
  obtain ⟨-, -, -, -, -, -, -, -, -, hms⟩ := fromRegsAndMem_regs hpi
  obtain ⟨⟨a, ha, hlen⟩, hw, hhd, -, -, lo, hi, hpi'⟩ := main_shape hmain
  have hwidth : mainWidth pi0 = 34 := by
    unfold mainWidth
    rw [hms, (rangeCheckRange_spec r).1 hrc, hrcs]
  have hrcb : hasRcBuiltin pi = true := by
    rw [hpi']
    show (!pi0.memorySegments.isEmpty) = true
    rw [hms]
    simpa [List.isEmpty_iff] using hne
  rw [hhd]
  have hk : 0 < mainWidth pi0 := by omega
  cases hproof : generateCairoProof env ⟨main.flatten, mainWidth pi0⟩ pi options with
  | panic => rfl
  | err e => cases e
  | ok proof =>
    exfalso
    unfold generateCairoProof prove at hproof
    have hnew : CairoAir.new (ofRows main (mainWidth pi0)).nRows pi options = .ok (air (2 ^ a) pi options) := by
      rw [nRows_ofRows main _ hk hw, hlen]; rfl
    rw [show (⟨main.flatten, mainWidth pi0⟩ : TraceTable FE) = ofRows main (mainWidth pi0) from rfl, hnew] at hproof
    simp only [Outcome.bind_eq_ok, Outcome.bind_ok] at hproof
    obtain ⟨d, hd, ⟨r1, t1⟩, hr1, bcs, -, r2, hr2, -⟩ := hproof
    obtain ⟨g, w, D⟩ := domain_new ha rfl hbl hd
    obtain ⟨root0, rest, -, -, -, aux, haux, hcols⟩ := round1_ok D hk hlen hw hr1
    simp only [air, Outcome.bind_eq_ok, Outcome.pure_eq, Outcome.ok.injEq] at haux
    obtain ⟨auxRows, haux, rfl⟩ := haux
    rw [tableRows_ofRows hk hw] at haux
    obtain ⟨_, _, _, _, _, A⟩ := buildAuxiliaryTrace_ok haux
    have hcols : r1.ldeTrace.nCols = 34 + 18 := by
      rcases hcols with ⟨h0, -⟩ | ⟨-, h⟩
      · cases h0
      · obtain ⟨R, hp⟩ := h auxRows rfl (by rw [A.len, hlen]) A.width
        rw [R.lde]
        show r1.tracePolys.length = _
        rw [hp, hwidth]
        rfl
    unfold round2 at hr2
    simp only [Outcome.bind_eq_ok] at hr2
    obtain ⟨bcs', -, evals, hev, -⟩ := hr2
    obtain ⟨frame, evs, hframe, hc⟩ := evaluate_frame hev (by
      rw [D.lde]
      simp) (by show 0 < options.blowupFactor.toNat; rw [hbl]; positivity)
    have hc' : computeTransitionFrame (hasRcBuiltin pi) frame r1.rapChallenges = .ok evs := hc
    unfold computeTransitionFrame at hc'
    simp only [Outcome.bind_eq_ok] at hc'
    obtain ⟨_, -, _, -, h⟩ := hc'
    rw [hframe, hcols, hrcb] at h
    rw [if_neg (by decide)] at h
    cases h

/-- **C83** is false without the range-check builtin in every build: the debug build and the release build of the
prover panic for such a run and any output range as well, if the sizes fit in memory. -/
theorem C83_output_panics_in_every_build {vm : Vm} {version : CairoVersion} {layout : CairoLayout}
    (hl : LayoutFor version layout) {program : Bytes} {r : VmRun} (hvm : vm version layout program = .ok r)
    (hrc : r.rangeCheckBuiltin = none) {m : FE → FE} {states : List RegistersState} (honest : HonestVmRun r m states)
    {range : Nat × Nat} {tab : TraceTable FE} {pi : PublicInputs}
    (hargs : generateProverArgs vm program version (some range) = .ok (tab, pi))
    (hn : tab.nRows < 2 ^ 56) (R : Representable pi)
    {options : ProofOptions} {b : Nat} (hbl : options.blowupFactor.toNat = 2 ^ b) :
    generateCairoProofRelease env tab pi options = .panic ∧ generateCairoProofDebug env tab pi options = .panic := by
  have hp := C83_output_needs_range_check (env := env) hl hvm hrc honest hargs hbl
  constructor
  · obtain rfl := layoutFor_eq hl
    obtain ⟨mem, pi0, main, hmem, run, hpi, hmain, rfl⟩ := output_args hvm honest hargs
    obtain ⟨⟨a, ha, hlen⟩, hw, hhd, -, hne, lo, hi, hpi'⟩ := main_shape hmain
    obtain ⟨-, -, -, -, -, -, -, -, hns, -⟩ := fromRegsAndMem_regs hpi
    have hk : 0 < mainWidth pi0 := by have := mainWidth_ge pi0; omega
    have hsteps : pi.numSteps = states.length := by rw [hpi']; exact hns
    have hrows : TraceTable.nRows ⟨main.flatten, (main.headD []).length⟩ = main.length := by
      rw [hhd]
      exact nRows_ofRows main _ hk hw
    rcases cairo_prove_agree (p := True) (env := env) (options := options)
      (trace := ⟨main.flatten, (main.headD []).length⟩) hn R
      (fun _ => ⟨by rw [hsteps]; exact fun h => hne (List.length_eq_zero_iff.1 h), by
        rw [hrows, hlen]; positivity⟩) with e | ⟨-, e⟩
    · rw [← e]; exact hp
    · exact absurd trivial e
  · cases h : generateCairoProofDebug env tab pi options with
    | panic => rfl
    | err e => cases e
    | ok x =>
      obtain ⟨proof, valid, reports⟩ := x
      obtain ⟨-, h⟩ := debug_new h
      have h := (C69_same_proof h).1
      unfold generateCairoProof at hp
      cases h.symm.trans hp

/-- **C83**, partial: for every honest run of a program with the range-check builtin and every output range after the
program that leaves no gap, every proof that `generate_cairo_proof` returns for the arguments with this range is
accepted, for all hash functions and all options with a power-of-two extension of at least two and a coset offset that
is not a square.
Missing: programs without the range-check builtin, for which there is no proof (`C83_output_needs_range_check`), and
ranges that leave a gap, whose proofs are rejected (`C24_gap_rejected_random_hash`). -/
theorem C83_output_proved_partial (hta : env.ta = starkRoots) {vm : Vm} {version : CairoVersion} {layout : CairoLayout}
    (hl : LayoutFor version layout) {program : Bytes} {r : VmRun} (hvm : vm version layout program = .ok r)
    (hrc : r.rangeCheckBuiltin ≠ none) {m : FE → FE} {states : List RegistersState} (honest : HonestVmRun r m states)
    {s e : Nat} (hs : r.dataLen < s) (hse : s ≤ e) (he : e < 2 ^ 64)
    (hcov : OutputCovered m states r.dataLen [(.output, (s, e))])
    {tab : TraceTable FE} {pi : PublicInputs}
    (hargs : generateProverArgs vm program version (some (s, e)) = .ok (tab, pi))
    {options : ProofOptions} {b : Nat} (hb1 : 1 ≤ b) (hbl : options.blowupFactor.toNat = 2 ^ b)
    (hsq : ¬ IsSquare (options.cosetOffset : FE)) {proof : StarkProof FE}
    (hproof : generateCairoProof env tab pi options = .ok proof) :
    verifyCairoProof env proof pi options = .ok true := by
  obtain rfl := layoutFor_eq hl
  obtain ⟨mem, pi0, main, hmem, run, hpi, hmain, rfl⟩ := output_args hvm honest hargs
  obtain ⟨ho, hrcs, -⟩ := segments_output (rangeCheckRange r) (s, e)
  obtain ⟨⟨idx, stop⟩, hx⟩ := Option.ne_none_iff_exists'.1 hrc
  exact C44_cairo_honest_proofs_verify hta run hpi honest.size ((hmem 0).trans honest.zero) honest.pc
    (.inr ⟨_, hrcs.trans ((rangeCheckRange_spec r).2 idx stop hx)⟩) (builtin_values honest hmem hrcs)
    (by intro s' e' h; rw [ho] at h; cases h; exact ⟨hs, hse, he⟩)
    (outputCovered_congr (by rw [ho]; rfl) hcov) hmain hb1 hbl hsq hproof

/-! ## The hypotheses are met -/

namespace Examples

/-- The run of `simple_program` with an (unused) range-check segment. Its result is at address 8. -/
def run2 : VmRun := { run0 with rangeCheckBuiltin := some (0, none) }

def vm2 : Vm := fun _ _ _ => .ok run2

theorem run2_honest : HonestVmRun run2 Verif.Examples.m Verif.Examples.states where
  trace := rfl
  regs := by decide
  cells := by decide
  range := by intro idx stop h; cases h; decide
  run := ⟨_, run0_memory, example_run⟩
  zero := rfl
  size := by decide
  pc := ⟨⟨1, 8, 8⟩, by decide, by decide⟩
  builtin := by intro idx stop h n h1 h2; cases h; simp at h2; omega

theorem cells_defined : ∀ n, (1 ≤ n ∧ n ≤ run0.dataLen) ∨ (8 ≤ n ∧ n < 9) → (run0.relocatedMemory[n]?).join ≠ none := by
  intro n hn
  have h : n ≤ 8 := by
    rcases hn with ⟨-, h⟩ | h
    · exact h.trans (by decide)
    · omega
  have h0 : 1 ≤ n := by omega
  interval_cases n <;> decide

/-- Its public inputs and its trace. -/
def segs2 : MemorySegmentMap := createMemorySegmentMap (some (1, 1)) (some (8, 9))

def pi2 : PublicInputs :=
  (fromRegsAndMem Verif.Examples.states Verif.Examples.mem 5 segs2).getD Verif.Examples.pi0

theorem pi2_eq : fromRegsAndMem Verif.Examples.states Verif.Examples.mem 5 segs2 = .ok pi2 :=
  Outcome.eq_ok_getD _ (by decide +kernel)

def main2 : List (List FE) × PublicInputs :=
  (buildMainTrace Verif.Examples.states Verif.Examples.mem pi2).getD ([], pi2)

theorem main2_eq : buildMainTrace Verif.Examples.states Verif.Examples.mem pi2 = .ok main2 :=
  Outcome.eq_ok_getD _ (by decide +kernel)

theorem args2 : generateProverArgs vm2 [] .v0 (some (8, 9))
    = .ok (⟨main2.1.flatten, (main2.1.headD []).length⟩, main2.2) := by
  have h1 : runProgram vm2 (layoutOf .v0) [] .v0 = .ok (Verif.Examples.states, Verif.Examples.mem, 5, some (1, 1)) := by
    decide +kernel
  have h2 : fromRegsAndMem Verif.Examples.states Verif.Examples.mem 5
    (createMemorySegmentMap (some (1, 1)) (some (8, 9))) = .ok pi2 := pi2_eq
  unfold generateProverArgs
  rw [h1, Outcome.bind_ok]
  simp only [h2, Outcome.unwrapErr, Outcome.bind_ok, main2_eq, Outcome.pure_eq]

/-- There is a proof of it. -/
theorem proof2 : ∃ proof, generateCairoProof Verif.Examples.envFar ⟨main2.1.flatten, (main2.1.headD []).length⟩
    main2.2 ProofOptions.defaultTestOptions = .ok proof := by
  have hmain : buildMainTrace Verif.Examples.states Verif.Examples.mem pi2 = .ok (main2.1, main2.2) := by
    rw [main2_eq, Prod.mk.eta]
  have hmem : ∀ n : Fin 256, (accesses main2.1 ++ pi2.publicMemory).all (fun e =>
      decide (((UInt8.ofNat n.val + 1).toNat : FE) + (2 ^ 200 : Nat)
        ≠ e.1 + ((((UInt8.ofNat n.val).toNat : FE) + (2 ^ 200 : Nat)) * e.2))) = true := by
    decide +kernel
  have hoff : ∀ n : Fin 256, (getCols main2.1 [OFF_DST, OFF_OP0, OFF_OP1]).all (fun x =>
      decide (((UInt8.ofNat n.val + 1 + 1).toNat : FE) + (2 ^ 200 : Nat) ≠ x)) = true := by
    decide +kernel
  have hmem' : ∀ t : UInt8, ∀ e ∈ accesses main2.1 ++ pi2.publicMemory,
      (buildRapChallenges Verif.Examples.envFar (air (2 ^ 3) main2.2 ProofOptions.defaultTestOptions) t).1.zMemory
        ≠ e.1 + (buildRapChallenges Verif.Examples.envFar (air (2 ^ 3) main2.2 ProofOptions.defaultTestOptions)
          t).1.alphaMemory * e.2 := by
    intro t e he
    have := List.all_eq_true.1 (hmem ⟨t.toNat, t.toNat_lt⟩) e he
    simp only [UInt8.ofNat_toNat, decide_eq_true_eq] at this
    exact this
  have hoff' : ∀ t : UInt8, ∀ x ∈ getCols main2.1 [OFF_DST, OFF_OP0, OFF_OP1],
      (buildRapChallenges Verif.Examples.envFar (air (2 ^ 3) main2.2 ProofOptions.defaultTestOptions) t).1.zRangeCheck ≠ x := by
    intro t x hx
    have := List.all_eq_true.1 (hoff ⟨t.toNat, t.toNat_lt⟩) x hx
    simp only [UInt8.ofNat_toNat, decide_eq_true_eq] at this
    exact this
  refine C44_cairo_prover_succeeds (env := Verif.Examples.envFar) (a := 3) (b := 2) (m := Verif.Examples.m)
    (size := 5) (segs := segs2) rfl example_run pi2_eq (by norm_num) (by decide +kernel)
    ⟨⟨1, 8, 8⟩, by decide, by decide⟩ (.inr ⟨(1, 1), rfl⟩)
    (by intro s e h; cases h; intro n h1 h2; omega) (by intro s e h; cases h; decide)
    (outputCovered_congr (by decide) example_covered) hmain (by decide +kernel)
    (by norm_num) (by norm_num) (by decide) (by exact_mod_cast three_not_square) ?_ ?_
    (samplingEnds_of (cairo_setting_of (b := 2) (by norm_num) (by norm_num) _ (by decide)
        (by exact_mod_cast three_not_square))
      fun lde trace t h1 h2 => Verif.Examples.sampleZOodFar lde trace t (by rw [h1, h2]; norm_num))
    Verif.Examples.generateNonce_stark
  · exact fun _ _ => hmem' _
  · exact fun _ _ => hoff' _

end Examples

/-- Without the range-check builtin the result of `simple_program` cannot be proved. -/
example : ∃ tab pi, generateProverArgs Examples.vm0 [] .v0 (some (8, 9)) = .ok (tab, pi) ∧
    (∀ a v, (a, v) ∈ pi.publicMemory ↔ ∃ n : Nat, a = (n : FE) ∧ ((1 ≤ n ∧ n ≤ 5) ∨ (8 ≤ n ∧ n < 9)) ∧
      (Examples.run0.relocatedMemory[n]?).join = some v) ∧
    generateCairoProof Verif.Examples.envFar tab pi ProofOptions.defaultTestOptions = .panic := by
  obtain ⟨tab, pi, h⟩ := (C83_output_args (vm := Examples.vm0) (program := []) .v0 rfl Examples.run0_honest 8 9).1
    Examples.cells_defined
  exact ⟨tab, pi, h, (C83_output_claim .v0 rfl Examples.run0_honest (by decide) (by norm_num) (by norm_num) h).2,
    C83_output_needs_range_check .v0 rfl rfl Examples.run0_honest h (b := 2) (by decide)⟩

namespace Examples

def segs1 : MemorySegmentMap := createMemorySegmentMap none (some (8, 9))

def pi1 : PublicInputs :=
  (fromRegsAndMem Verif.Examples.states Verif.Examples.mem 5 segs1).getD Verif.Examples.pi0

def main1 : List (List FE) × PublicInputs :=
  (buildMainTrace Verif.Examples.states Verif.Examples.mem pi1).getD ([], pi1)

theorem args1 : generateProverArgs vm0 [] .v0 (some (8, 9))
    = .ok (⟨main1.1.flatten, (main1.1.headD []).length⟩, main1.2) := by
  have h1 : runProgram vm0 (layoutOf .v0) [] .v0 = .ok (Verif.Examples.states, Verif.Examples.mem, 5, none) := by
    decide +kernel
  have h2 : fromRegsAndMem Verif.Examples.states Verif.Examples.mem 5
    (createMemorySegmentMap none (some (8, 9))) = .ok pi1 := Outcome.eq_ok_getD _ (by decide +kernel)
  have h3 : buildMainTrace Verif.Examples.states Verif.Examples.mem pi1 = .ok main1 :=
    Outcome.eq_ok_getD _ (by decide +kernel)
  unfold generateProverArgs
  rw [h1, Outcome.bind_ok]
  simp only [h2, Outcome.unwrapErr, Outcome.bind_ok, h3, Outcome.pure_eq]

end Examples

/-- Nor can it in the other builds. -/
example : ∃ tab pi, generateProverArgs Examples.vm0 [] .v0 (some (8, 9)) = .ok (tab, pi) ∧
    generateCairoProofRelease Verif.Examples.envFar tab pi ProofOptions.defaultTestOptions = .panic ∧
    generateCairoProofDebug Verif.Examples.envFar tab pi ProofOptions.defaultTestOptions = .panic :=
  ⟨_, _, Examples.args1, C83_output_panics_in_every_build .v0 rfl rfl Examples.run0_honest Examples.args1
    (by decide +kernel) ⟨by decide +kernel, by decide +kernel, fun s e h => by
      have h' : Examples.main1.2.memorySegments.get? .output = some (8, 9) := by decide +kernel
      cases h'.symm.trans h
      exact ⟨by norm_num, by norm_num⟩⟩ (b := 2) (by decide)⟩

/-- With it, its claim has the result, there is a proof, and the proof is accepted. -/
example : ∃ tab pi proof, generateProverArgs Examples.vm2 [] .v0 (some (8, 9)) = .ok (tab, pi) ∧
    ((8 : FE), (3 : FE)) ∈ pi.publicMemory ∧
    generateCairoProof Verif.Examples.envFar tab pi ProofOptions.defaultTestOptions = .ok proof ∧
    verifyCairoProof Verif.Examples.envFar proof pi ProofOptions.defaultTestOptions = .ok true := by
  obtain ⟨proof, hproof⟩ := Examples.proof2
  have h := Examples.args2
  refine ⟨_, _, proof, h, ((C83_output_claim .v0 rfl Examples.run2_honest (by decide) (by norm_num) (by norm_num) h).2
    _ _).2 ⟨8, by norm_num, .inr (by norm_num), by decide⟩, hproof, ?_⟩
  exact C83_output_proved_partial (env := Verif.Examples.envFar) (vm := Examples.vm2) rfl .v0 rfl (by decide)
    Examples.run2_honest (by decide) (by norm_num) (by norm_num) example_covered h (b := 2) (by norm_num) (by decide)
    (by exact_mod_cast three_not_square) hproof

end Verif.Props
