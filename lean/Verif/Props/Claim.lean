import Verif.Spec.Claim
import Verif.Props.Cli

/-!
# C63: the public inputs describe the run
-/

namespace Verif.Props
open Runner Spec ExecTrace CairoAir Cli

/-- The offset columns of the execution trace hold the biased offsets of the executed instructions. -/
theorem mem_offsets {mem : CairoMemory} {m : FE → FE} {states : List RegistersState}
    (run : HonestRun mem m states) {pi : PublicInputs} {exec : List (List FE)}
    (h : buildCairoExecutionTrace states mem pi = .ok exec) (n : Nat) (hn : n < 2 ^ 16) :
    (n : FE) ∈ getCols exec [OFF_DST, OFF_OP0, OFF_OP1] ↔ IsRunOffset m states ((n : Int) - 2 ^ 15) := by
  have hP : 2 ^ 16 < P := lt_trans (by norm_num) P_gt
  have hbit : ∀ w pos, ((bits w pos 16 : Nat) : FE) = (n : FE) ↔ (n : Int) - 2 ^ 15 = (bits w pos 16 : Int) - 2 ^ 15 := by
    intro w pos
    have hlt : bits w pos 16 < 2 ^ 16 := Nat.mod_lt _ (by norm_num)
    constructor
    · intro h
      have := congrArg ZMod.val h
      rw [ZMod.val_natCast_of_lt (by omega), ZMod.val_natCast_of_lt (by omega)] at this
      omega
    · intro h
      have : bits w pos 16 = n := by omega
      rw [this]
  constructor
  · intro hx
    obtain ⟨r, hr, c, hc, hx⟩ := mem_getCols.1 hx
    obtain ⟨t, ht, res, rest, rfl⟩ := mem_exec run h hr
    refine ⟨t, ht, ?_⟩
    simp only [List.mem_cons, List.not_mem_nil, or_false] at hc
    rcases hc with rfl | rfl | rfl <;> replace hx := hx.symm <;>
      rw [getD_specCells _ _ _ _ (by decide)] at hx
    · exact .inl ((hbit _ 0).1 hx)
    · exact .inr (.inl ((hbit _ 16).1 hx))
    · exact .inr (.inr ((hbit _ 32).1 hx))
  · rintro ⟨t, ht, ho⟩
    obtain ⟨ext, he, -⟩ := exec_rows run h
    obtain ⟨i, hi, rfl⟩ := List.mem_iff_getElem.1 ht
    obtain ⟨res, -, hr⟩ := he i hi
    have hr := List.mem_of_getElem? hr
    rcases ho with ho | ho | ho
    · refine mem_getCols.2 ⟨_, hr, OFF_DST, by simp, ?_⟩
      rw [eq_comm, getD_specCells _ _ _ _ (by decide)]
      exact (hbit _ 0).2 ho
    · refine mem_getCols.2 ⟨_, hr, OFF_OP0, by simp, ?_⟩
      rw [eq_comm, getD_specCells _ _ _ _ (by decide)]
      exact (hbit _ 16).2 ho
    · refine mem_getCols.2 ⟨_, hr, OFF_OP1, by simp, ?_⟩
      rw [eq_comm, getD_specCells _ _ _ _ (by decide)]
      exact (hbit _ 32).2 ho

/-- **C63**: for every run of the Cairo machine, the public inputs given to the prover describe that run. -/
theorem C63_public_inputs_describe_run {mem : CairoMemory} {m : FE → FE} {states : List RegistersState}
    (run : HonestRun mem m states) {size : Nat} {segs : MemorySegmentMap} {pi0 pi : PublicInputs}
    {rows : List (List FE)} (hpi : fromRegsAndMem states mem size segs = .ok pi0) (hsize : size < 2 ^ 64)
    (hout : OutputAfterProgram size segs) (hmain : buildMainTrace states mem pi0 = .ok (rows, pi)) :
    DescribesRun pi mem m states size segs := by
  obtain ⟨exec, rcHoles, lo, hi, holes, last1, last2, k, M⟩ := buildMainTrace_ok hmain
  obtain ⟨-, hcells⟩ := C19_public_memory_placed hpi hsize hout (List.replicate pi0.publicMemory.length 0)
    (List.replicate pi0.publicMemory.length 0) rfl (by simp)
  obtain ⟨addrs, -, hkeys, hnd, -⟩ := fromRegsAndMem_ok hpi hsize hout
  obtain ⟨hoff1, hoff2⟩ := offsets16 run M.exec_eq
  obtain ⟨rcHoles', lo', hi', heq, hlo, hhi, h16, hset, -⟩ := C17_rc_holes _ hoff1 hoff2
  rw [M.rc_eq] at heq
  simp only [Outcome.ok.injEq, Prod.mk.injEq] at heq
  obtain ⟨rfl, rfl, rfl⟩ := heq
  have hP : 2 ^ 16 < P := lt_trans (by norm_num) P_gt
  have hle : lo ≤ hi := by
    have := ((hset _).1 (List.mem_append_left _ hhi)).1
    rwa [ZMod.val_natCast_of_lt (by omega)] at this
  have hl16 : (UInt16.ofNat lo).toNat = lo := UInt16.toNat_ofNat_of_lt' (by show _ < 65536; omega)
  have hh16 : (UInt16.ofNat hi).toNat = hi := UInt16.toNat_ofNat_of_lt' (by show _ < 65536; omega)
  have hall : ∀ o, IsRunOffset m states o → (lo : Int) - 2 ^ 15 ≤ o ∧ o ≤ (hi : Int) - 2 ^ 15 := by
    intro o ho
    have hb : ∀ w pos, 0 ≤ (bits w pos 16 : Int) ∧ bits w pos 16 < 2 ^ 16 :=
      fun w pos => ⟨by omega, Nat.mod_lt _ (by norm_num)⟩
    obtain ⟨n, hn, rfl⟩ : ∃ n : Nat, n < 2 ^ 16 ∧ o = (n : Int) - 2 ^ 15 := by
      obtain ⟨t, ht, rfl | rfl | rfl⟩ := ho
      · exact ⟨_, (hb _ 0).2, rfl⟩
      · exact ⟨_, (hb _ 16).2, rfl⟩
      · exact ⟨_, (hb _ 32).2, rfl⟩
    have := (hset _).1 (List.mem_append_left _ ((mem_offsets run M.exec_eq n hn).2 ho))
    rw [ZMod.val_natCast_of_lt (by omega)] at this
    omega
  unfold fromRegsAndMem at hpi
  simp only [Outcome.bind_eq_ok, Outcome.pure_eq, Outcome.ok.injEq] at hpi
  obtain ⟨prog, -, out, -, last, hl, first, hf, rfl⟩ := hpi
  have hl : states.getLast? = some last := by
    cases hh : states.getLast? <;> simp_all [Outcome.ofOptionUnwrap]
  have hf : states.head? = some first := by
    cases hh : states.head? <;> simp_all [Outcome.ofOptionUnwrap]
  rw [M.pi_eq]
  refine ⟨⟨first, hf, rfl, rfl, rfl⟩, ⟨last, hl, rfl, rfl⟩, rfl, rfl, ⟨_, rfl, ?_, ?_⟩, ⟨_, rfl, ?_, ?_⟩, hcells, ?_⟩
  · rw [hl16]
    exact (mem_offsets run M.exec_eq lo (by omega)).1 hlo
  · rw [hl16]
    exact fun o ho => (hall o ho).1
  · rw [hh16]
    exact (mem_offsets run M.exec_eq hi (by omega)).1 hhi
  · rw [hh16]
    exact fun o ho => (hall o ho).2
  · rw [show List.map Prod.fst _ = addrs from hkeys]
    exact hnd

theorem publicCells_exists_iff {mem : CairoMemory} {s l : Nat} :
    (∃ cells, publicCells mem s l = .ok cells) ↔ ∀ n, s ≤ n → n < s + l → mem.get? n ≠ none := by
  constructor
  · rintro ⟨cells, h⟩ n h1 h2 hn
    obtain ⟨p1, p2⟩ := publicCells_ok h
    unfold publicCells at h
    have hl := mapOutcome_length h
    rw [List.length_range'] at hl
    have := (mapOutcome_mem h).2 (n - s) (by rw [List.length_range']; omega) (by omega)
    rw [List.getElem_range'] at this
    simp only [one_mul, Nat.add_sub_cancel' h1, memGet, hn, Outcome.ofOptionUnwrap, Outcome.bind_eq_ok] at this
    obtain ⟨v, hv, -⟩ := this
    cases hv
  · intro h
    refine Verif.ExecTrace.mapOutcome_exists fun n hn => ?_
    rw [List.mem_range'_1] at hn
    obtain ⟨v, hv⟩ := Option.ne_none_iff_exists'.1 (h n hn.1 hn.2)
    exact ⟨((n : FE), v), by rw [memGet, hv]; rfl⟩

/-- **C63**: the public inputs are obtained exactly for the non-empty register traces with a memory that has
every cell of the program and of the output segment; otherwise the call panics. -/
theorem C63_public_inputs_total (states : List RegistersState) (mem : CairoMemory) (size : Nat)
    (segs : MemorySegmentMap) :
    ((∃ pi, fromRegsAndMem states mem size segs = .ok pi) ↔
      states ≠ [] ∧ ∀ n, IsPublic size segs n → mem.get? n ≠ none) ∧
    (¬ (states ≠ [] ∧ ∀ n, IsPublic size segs n → mem.get? n ≠ none) →
      fromRegsAndMem states mem size segs = .panic) := by
  have key : (∃ pi, fromRegsAndMem states mem size segs = .ok pi) ↔
      states ≠ [] ∧ ∀ n, IsPublic size segs n → mem.get? n ≠ none := by
    constructor
    · rintro ⟨pi, h⟩
      unfold fromRegsAndMem at h
      simp only [Outcome.bind_eq_ok, Outcome.pure_eq, Outcome.ok.injEq] at h
      obtain ⟨prog, hprog, out, hout, last, hl, first, hf, rfl⟩ := h
      refine ⟨?_, ?_⟩
      · rintro rfl
        cases hf
      · rintro n (⟨h1, h2⟩ | ⟨s, e, ho, h1, h2⟩)
        · exact publicCells_exists_iff.1 ⟨_, hprog⟩ n h1 (by omega)
        · rw [ho] at hout
          exact publicCells_exists_iff.1 ⟨_, hout⟩ n h1 (by omega)
    · rintro ⟨hne, h⟩
      obtain ⟨prog, hprog⟩ := (publicCells_exists_iff (mem := mem) (s := 1) (l := size)).2
        fun n h1 h2 => h n (.inl ⟨h1, by omega⟩)
      have hlast := List.getLast?_eq_getLast_of_ne_nil hne
      have hfirst := List.head?_eq_some_head hne
      unfold fromRegsAndMem
      cases ho : segs.get? .output with
      | none =>
        simp only [hprog, Outcome.bind_ok, Outcome.pure_eq, hlast, hfirst, Outcome.ofOptionUnwrap]
        exact ⟨_, rfl⟩
      | some r =>
        obtain ⟨s, e⟩ := r
        obtain ⟨out, hout⟩ := (publicCells_exists_iff (mem := mem) (s := s) (l := e - s)).2
          fun n h1 h2 => h n (.inr ⟨s, e, ho, h1, by omega⟩)
        simp only [hprog, hout, Outcome.bind_ok, Outcome.pure_eq, hlast, hfirst, Outcome.ofOptionUnwrap]
        exact ⟨_, rfl⟩
  refine ⟨key, fun hn => ?_⟩
  cases h : fromRegsAndMem states mem size segs with
  | ok pi => exact absurd (key.1 ⟨pi, h⟩) hn
  | err e => cases e
  | panic => rfl

/-- **C63**: the file that `prove` writes for a run carries public inputs that describe that run, whose
segments are the range-check segment alone. -/
theorem C63_file_describes_run {T : Type} {env : Env FE T} {vm : Vm} {w : World}
    {name inp out path : String} {rest : List String} {program file : Bytes}
    (hread : w.read inp = some program) {version : CairoVersion}
    {layout : CairoLayout} (has : RunAs inp version layout) {r : VmRun}
    (hvm : vm version layout program = .ok r) {m : FE → FE}
    {states : List RegistersState} (honest : HonestVmRun r m states) (hsize : r.dataLen < 2 ^ 57)
    (hprove : Cli.main env vm w (name :: "prove" :: inp :: out :: rest) = .ok (.wrote path file)) :
    ∃ proof pi mem segs range, readProofFile file = .ok (proof, pi) ∧ MemoryOf r mem ∧
      DescribesRun pi mem m states r.dataLen segs ∧ IsRangeCheckRange r range ∧
      segs.get? .rangeCheck = range ∧ segs.get? .output = none := by
  obtain ⟨rfl, rfl⟩ := runAs_version has
  have hfile := prove_file_length hread hvm honest hsize hprove
  obtain ⟨rfl, program', tab, pi, proof, hr, hargs, hproof, hwrite⟩ := prove_wrote hprove
  rw [hread] at hr
  obtain rfl := Option.some.inj hr
  obtain ⟨hwf, hsized, -⟩ := cli_wellformed hargs hvm honest.toMachineRun hproof
  obtain ⟨states', mem, size, rc, pi0, main, h1, h2, h3, rfl⟩ := generateProverArgs_ok hargs
  obtain ⟨mem', h1', hmem⟩ := runProgram_ok hvm honest.toMachineRun
  rw [h1] at h1'
  simp only [Outcome.ok.injEq, Prod.mk.injEq] at h1'
  obtain ⟨rfl, rfl, rfl, rfl⟩ := h1'
  obtain ⟨mem0, hmem0, run⟩ := honest.run
  obtain ⟨ho, hrc, -⟩ := segments_cli (rangeCheckRange r)
  exact ⟨proof, pi, mem, _, _, C08_proof_file_roundtrip proof pi hsized hwf file hwrite hfile, hmem,
    C63_public_inputs_describe_run (HonestRun.same run fun a => (hmem a).trans (hmem0 a).symm) h2 honest.size
      (by intro s e h; rw [ho] at h; cases h) h3, rangeCheckRange_spec r, hrc, ho⟩

/-- The hypotheses are met: the run of `simple_program`, its public inputs and its file. -/
example : DescribesRun Verif.Examples.main0.2 Verif.Examples.mem Verif.Examples.m Verif.Examples.states 5 [] :=
  C63_public_inputs_describe_run example_run Verif.Examples.pi0_eq (by norm_num)
    (by intro s e h; cases h) (rows := Verif.Examples.main0.1) (by rw [Verif.Examples.main0_eq, Prod.mk.eta])

example : ∃ file proof pi mem segs range, Cli.main Verif.Examples.envFar Examples.vm0 Examples.world0
      ["prover", "prove", "simple.json", "simple.proof"] = .ok (.wrote "simple.proof" file) ∧
    readProofFile file = .ok (proof, pi) ∧ MemoryOf Examples.run0 mem ∧
    DescribesRun pi mem Verif.Examples.m Verif.Examples.states 5 segs ∧ IsRangeCheckRange Examples.run0 range ∧
    segs.get? .rangeCheck = range ∧ segs.get? .output = none := by
  obtain ⟨file, h⟩ := Examples.prove0
  obtain ⟨proof, pi, mem, segs, range, h1⟩ := C63_file_describes_run (vm := Examples.vm0) (w := Examples.world0)
    (program := []) rfl Examples.simple_runAs rfl Examples.run0_honest (by decide) h
  exact ⟨file, proof, pi, mem, segs, range, h, h1⟩

/-- A memory without the second cell of the program. -/
example : fromRegsAndMem [⟨1, 8, 8⟩] [(1, 5)] 2 [] = .panic :=
  (C63_public_inputs_total _ _ _ _).2 fun h => h.2 2 (.inl ⟨by norm_num, le_rfl⟩) rfl

end Verif.Props
