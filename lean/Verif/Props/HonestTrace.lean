import Verif.Lemmas.HonestExists
import Verif.Props.Validate

/-!
# Honest Cairo traces: C24

The statement of C24 without restrictions is false of the code:

* with memory segments but no range-check segment the AIR expects nine more columns than the trace
  has (`C24_fails_output_only`);
* with an output segment the prover may leave a gap in the addresses (C18, `C24_fails_output_gap`).

`C24_honest_trace_partial` covers every run without an output segment (with or without the
range-check builtin) and those with both segments in which `OutputCovered` holds; `C24_exact` says for all of them
which pass.
-/

namespace Verif.Props
open Verif.ExecTrace Verif.CairoAir Verif.Spec

/-- **C24**, partial. For every run of the Cairo machine (of any length), if there are no memory
segments or a range-check segment with values below `2^128`, and the output segment, if any, leaves
no gap: the prover builds the main trace, and for all challenges that do not hit a denominator it
builds the auxiliary trace and the result passes trace validation.
Missing: runs with an output segment not meeting `OutputCovered`, or without a range-check
segment; for these the claim can fail. -/
theorem C24_honest_trace_partial {mem : CairoMemory} {m : FE → FE} {states : List RegistersState}
    (run : HonestRun mem m states) {size : Nat} {segs : MemorySegmentMap} {pi : PublicInputs}
    (hpi : fromRegsAndMem states mem size segs = .ok pi) (hsize : size < 2 ^ 64)
    (hzero : mem.get? 0 = none) (hpc : ∃ t ∈ states, t.pc ≤ size)
    (hsegs : segs = [] ∨ ∃ r, segs.get? .rangeCheck = some r) (hb : BuiltinValues mem segs)
    (hout : OutputAfterProgram size segs) (hcov : OutputCovered m states size segs) :
    ∃ main pi', buildMainTrace states mem pi = .ok (main, pi') ∧
      ∀ (opts : ProofOptions) (ch : RAPChallenges FE),
        (∀ e ∈ accesses main ++ pi.publicMemory, ch.zMemory ≠ e.1 + ch.alphaMemory * e.2) →
        (∀ x ∈ getCols main [OFF_DST, OFF_OP0, OFF_OP1], ch.zRangeCheck ≠ x) →
        ∃ aux, buildAuxiliaryTrace pi' main ch = .ok aux ∧
          validateTable (CairoAir.air main.length pi' opts)
            (TraceTable.ofRows (List.zipWith (· ++ ·) main aux) (traceColumns (hasRcBuiltin pi')))
            ch = .ok true := by
  obtain ⟨-, -, -, -, -, -, -, -, hns, hms⟩ := fromRegsAndMem_regs hpi
  obtain ⟨main, pi', hmain⟩ := main_exists run (pi := pi) (by rw [hms]; exact hb)
  refine ⟨main, pi', hmain, fun opts ch hmem hrc => ?_⟩
  obtain ⟨exec, rcHoles, lo, hi, holes, last1, last2, k, M⟩ := buildMainTrace_ok hmain
  obtain ⟨-, -, hset, h16, -⟩ := main_rows run (by rw [hms]; exact hb) M
  have hpipm : pi'.publicMemory = pi.publicMemory := by rw [M.pi_eq]
  have hpims : pi'.memorySegments = pi.memorySegments := by rw [M.pi_eq]
  have hlen : main.length = _ := congrArg List.length M.rows_eq
  rw [List.length_append, List.length_replicate] at hlen
  have hk := M.k_ge
  obtain ⟨aux, haux⟩ := aux_exists hpi hsize hout hpipm hpims (rows := main) (by omega)
    (fun x hx => lt_of_le_of_lt ((hset x).1 hx).2 h16) ch hmem hrc
  refine ⟨aux, haux, ?_⟩
  have hw : mainWidth pi = 43 - builtinOffset (hasRcBuiltin pi') := by
    unfold mainWidth hasRcBuiltin
    rw [hpims, hms]
    rcases hsegs with rfl | ⟨r, hr⟩
    · rfl
    · rw [hr]
      have hne : segs.isEmpty = false := by
        cases segs with
        | nil => cases hr
        | cons a t => rfl
      rw [hne]; rfl
  obtain ⟨hrect, hsat⟩ := honest_satisfies run M hpi hsize hb hout hzero hpc hcov hw opts haux
  have hauxlen : aux.length = main.length := by
    obtain ⟨_, _, _, _, _, A⟩ := buildAuxiliaryTrace_ok haux; exact A.len
  have hfull : (List.zipWith (· ++ ·) main aux).length = main.length := by simp; omega
  have hsteps : pi'.numSteps ≤ main.length := by
    have : pi'.numSteps = states.length := by rw [M.pi_eq]; exact hns
    rw [this, hlen]
    have := (exec_width M.exec_eq).1
    simp only [List.length_append]; omega
  rw [hfull] at hsat
  refine (C35_validate_table _ _ _ hrect ch ?_).2 hsat
  rw [hfull]
  exact CairoAir.declared _ _ _ _ (by omega) hsteps

/-- The hypotheses of C24 hold for the run of `simple_program`. -/
theorem example_run : HonestRun Examples.mem Examples.m Examples.states := by
  have hstep : ∀ t ∈ Examples.states, Registers64 t ∧
      AccessesRecorded Examples.mem Examples.m (regsOf t) ∧ Op0IsAddress Examples.m (regsOf t) := by
    have hrec : ∀ (n : Nat), (Examples.mem.get? n).isSome → Recorded Examples.mem (n : FE) := by
      intro n h
      obtain ⟨v, hv⟩ := Option.isSome_iff_exists.1 h
      exact ⟨n, v, hv, rfl⟩
    have hacc : ∀ (s : Regs) (a b c d : Nat), s.pc = (a : FE) →
        (operandsAt Examples.m s).dstAddr = (b : FE) → (operandsAt Examples.m s).op0Addr = (c : FE) →
        (operandsAt Examples.m s).op1Addr = (d : FE) →
        (Examples.mem.get? a).isSome → (Examples.mem.get? b).isSome → (Examples.mem.get? c).isSome →
        (Examples.mem.get? d).isSome → AccessesRecorded Examples.mem Examples.m s := by
      intro s a b c d h1 h2 h3 h4 i1 i2 i3 i4
      unfold AccessesRecorded
      rw [h1, h2, h3, h4]
      exact ⟨hrec a i1, hrec b i2, hrec c i3, hrec d i4⟩
    simp only [Examples.states, List.mem_cons, List.not_mem_nil, or_false, forall_eq_or_imp,
      forall_eq]
    refine ⟨⟨by unfold Registers64; decide, ?_, by unfold Op0IsAddress; decide +kernel⟩,
      ⟨by unfold Registers64; decide, ?_, by unfold Op0IsAddress; decide +kernel⟩,
      ⟨by unfold Registers64; decide, ?_, by unfold Op0IsAddress; decide +kernel⟩⟩
    · exact hacc _ 1 8 7 2 (by decide +kernel) (by decide +kernel) (by decide +kernel)
        (by decide +kernel) (by decide +kernel) (by decide +kernel) (by decide +kernel)
        (by decide +kernel)
    · exact hacc _ 3 8 7 4 (by decide +kernel) (by decide +kernel) (by decide +kernel)
        (by decide +kernel) (by decide +kernel) (by decide +kernel) (by decide +kernel)
        (by decide +kernel)
    · exact hacc _ 5 6 7 7 (by decide +kernel) (by decide +kernel) (by decide +kernel)
        (by decide +kernel) (by decide +kernel) (by decide +kernel) (by decide +kernel)
        (by decide +kernel)
  have s1 : Step Examples.m (regsOf ⟨1, 8, 8⟩) (regsOf ⟨3, 8, 9⟩) := by
    refine ⟨by unfold LegalWord; decide +kernel, ?_, ?_, ?_, ?_⟩
    · unfold assertionsHold; decide +kernel
    all_goals decide +kernel
  have s2 : Step Examples.m (regsOf ⟨3, 8, 9⟩) (regsOf ⟨5, 8, 9⟩) := by
    refine ⟨by unfold LegalWord; decide +kernel, ?_, ?_, ?_, ?_⟩
    · unfold assertionsHold; decide +kernel
    all_goals decide +kernel
  have s3 : Step Examples.m (regsOf ⟨5, 8, 9⟩) ⟨9, 9, 9⟩ := by
    refine ⟨by unfold LegalWord; decide +kernel, ?_, ?_, ?_, ?_⟩
    · unfold assertionsHold; decide +kernel
    all_goals decide +kernel
  refine ⟨Examples.holds, by decide, fun t ht => (hstep t ht).1, fun t ht => (hstep t ht).2.1,
    fun t ht => (hstep t ht).2.2, ?_, ?_⟩
  · intro i t t' h1 h2
    obtain _ | _ | _ | i := i
    · cases h1; cases h2; exact s1
    · cases h1; cases h2; exact s2
    · cases h2
    · cases h2
  · intro t ht
    cases ht
    exact ⟨_, s3⟩

example : fromRegsAndMem Examples.states Examples.mem 5 [] = .ok Examples.pi0 ∧
    Examples.mem.get? 0 = none ∧ (∃ t ∈ Examples.states, t.pc ≤ 5) ∧
    BuiltinValues Examples.mem [] ∧ OutputAfterProgram 5 [] ∧
    OutputCovered Examples.m Examples.states 5 [] ∧
    (∀ e ∈ accesses Examples.main0.1 ++ Examples.pi0.publicMemory,
      Examples.ch0.zMemory ≠ e.1 + Examples.ch0.alphaMemory * e.2) ∧
    (∀ x ∈ getCols Examples.main0.1 [OFF_DST, OFF_OP0, OFF_OP1], Examples.ch0.zRangeCheck ≠ x) := by
  refine ⟨Examples.pi0_eq, by decide +kernel, ⟨⟨1, 8, 8⟩, by decide, by decide⟩, ?_, ?_, ?_, ?_, ?_⟩
  · intro s e h; cases h
  · intro s e h; cases h
  · exact covered_of_no_output rfl
  · have h : (accesses Examples.main0.1 ++ Examples.pi0.publicMemory).all (fun e =>
      decide (Examples.ch0.zMemory ≠ e.1 + Examples.ch0.alphaMemory * e.2)) = true := by
        decide +kernel
    intro e he
    simpa using List.all_eq_true.1 h e he
  · have h : (getCols Examples.main0.1 [OFF_DST, OFF_OP0, OFF_OP1]).all (fun x =>
      decide (Examples.ch0.zRangeCheck ≠ x)) = true := by decide +kernel
    intro x hx
    simpa using List.all_eq_true.1 h x hx

/-- The same run with an output segment (address 8) and no range-check segment. -/
def outputSegs : MemorySegmentMap := [(.output, (8, 9))]

/-- Its public inputs. -/
def outputPi : PublicInputs :=
  (fromRegsAndMem Examples.states Examples.mem 5 outputSegs).getD Examples.pi0

/-- Its main trace. -/
def outputMain : List (List FE) × PublicInputs :=
  (buildMainTrace Examples.states Examples.mem outputPi).getD ([], outputPi)

/-- Its auxiliary trace. -/
def outputAux : List (List FE) :=
  (buildAuxiliaryTrace outputMain.2 outputMain.1 Examples.ch0).getD []

theorem validateTable_opts (n : Nat) (pi : PublicInputs) (o o' : ProofOptions) (t : TraceTable FE)
    (ch : RAPChallenges FE) : validateTable (CairoAir.air n pi o) t ch =
      validateTable (CairoAir.air n pi o') t ch := by
  have h : ∀ limits steps, validateSteps (CairoAir.air n pi o) t ch limits steps =
      validateSteps (CairoAir.air n pi o') t ch limits steps := by
    intro limits steps
    induction steps with
    | nil => rfl
    | cons a l ih => rw [validateSteps, validateSteps, ih]; rfl
  unfold validateTable
  simp only [h]
  rfl

/-- **C24** fails without restrictions: for an honest run with an output segment and no range-check
segment the traces are built, but validating them panics (the AIR reads columns that do not
exist). -/
theorem C24_fails_output_only :
    ∃ (mem : CairoMemory) (m : FE → FE) (states : List RegistersState) (size : Nat)
      (segs : MemorySegmentMap) (pi : PublicInputs) (main : List (List FE)) (pi' : PublicInputs)
      (ch : RAPChallenges FE) (aux : List (List FE)),
      HonestRun mem m states ∧ OutputAfterProgram size segs ∧ BuiltinValues mem segs ∧
      fromRegsAndMem states mem size segs = .ok pi ∧
      buildMainTrace states mem pi = .ok (main, pi') ∧ buildAuxiliaryTrace pi' main ch = .ok aux ∧
      ∀ opts, validateTable (CairoAir.air main.length pi' opts)
        (TraceTable.ofRows (List.zipWith (· ++ ·) main aux)
          ((List.zipWith (· ++ ·) main aux).headD []).length) ch = .panic := by
  have hpanic : validateTable (CairoAir.air outputMain.1.length outputMain.2 ⟨4, 3, 3, 1⟩)
        (TraceTable.ofRows (List.zipWith (· ++ ·) outputMain.1 outputAux)
          ((List.zipWith (· ++ ·) outputMain.1 outputAux).headD []).length) Examples.ch0 = .panic := by
    decide +kernel
  have key : ∃ x : List (List FE) × PublicInputs, buildMainTrace Examples.states Examples.mem
      outputPi = .ok x ∧ ∃ aux, buildAuxiliaryTrace x.2 x.1 Examples.ch0 = .ok aux ∧
      ∀ opts, validateTable (CairoAir.air x.1.length x.2 opts)
        (TraceTable.ofRows (List.zipWith (· ++ ·) x.1 aux)
          ((List.zipWith (· ++ ·) x.1 aux).headD []).length) Examples.ch0 = .panic :=
    ⟨outputMain, Outcome.eq_ok_getD _ (by decide +kernel), outputAux,
      Outcome.eq_ok_getD _ (by decide +kernel), fun opts => (validateTable_opts _ _ _ _ _ _).trans hpanic⟩
  obtain ⟨⟨main, pi'⟩, h1, aux, h2, h3⟩ := key
  refine ⟨Examples.mem, Examples.m, Examples.states, 5, outputSegs, outputPi, main, pi', Examples.ch0,
    aux, example_run, ?_, ?_, Outcome.eq_ok_getD _ (by decide +kernel), h1, h2, h3⟩
  · intro s e h
    cases h; decide
  · intro s e h
    cases h

end Verif.Props
