import Verif.Lemmas.Cli
import Verif.Props.Shape

/-!
# C58-C61: the runner and the command line
-/

namespace Verif.Props
open Runner Spec ExecTrace CairoAir Cli
variable {T : Type} {env : Env FE T}

/-! ## C58: what the prover receives from the virtual machine -/

/-- **C58**: for every run of the virtual machine whose numbers fit in 64 bits, `run_program` returns the
relocated trace, a memory with exactly the defined cells of the relocated memory, the program's length and
the range of the used cells of the range-check segment; trace and memory pass through their byte encodings
unchanged. -/
theorem C58_run_program {vm : Vm} {layout : CairoLayout} {program : Bytes} {version : CairoVersion}
    {r : VmRun} (hvm : vm version layout program = .ok r) {states : List RegistersState}
    (h : MachineRun r states) :
    ∃ mem range, runProgram vm layout program version = .ok (states, mem, r.dataLen, range) ∧
      MemoryOf r mem ∧ IsRangeCheckRange r range := by
  obtain ⟨mem, h1, h2⟩ := runProgram_ok hvm h
  exact ⟨mem, _, h1, h2, rangeCheckRange_spec r⟩

/-- **C58**: when the virtual machine fails, or has no trace, `run_program` returns that error. -/
theorem C58_run_program_fails {vm : Vm} {layout : CairoLayout} {program : Bytes} {version : CairoVersion} :
    (∀ e, vm version layout program = .err e → runProgram vm layout program version = .err e) ∧
    (∀ r, vm version layout program = .ok r → r.relocatedTrace = none →
      runProgram vm layout program version = .err .trace) := by
  constructor
  · intro e h
    unfold runProgram
    rw [h]; rfl
  · intro r h h1
    unfold runProgram
    rw [h, Outcome.bind_ok, h1]; rfl

/-- **C58**: the segments given to the prover are exactly the range-check range and the output range. -/
theorem C58_segments (range output : Option (Nat × Nat)) :
    (createMemorySegmentMap range output).get? .rangeCheck = range ∧
    (createMemorySegmentMap range output).get? .output = output ∧
    (createMemorySegmentMap range output).WF := by
  cases range <;> cases output <;> refine ⟨rfl, rfl, ?_⟩ <;> unfold HMap.WF <;>
    simp [createMemorySegmentMap, HMap.insert]

/-! ## C59: the file written by `prove` is accepted by `verify` -/

theorem generateProof_err {vm : Vm} {w : World} {inp : String} {options : ProofOptions} {e : Effect}
    (h : generateProof env vm w inp options = .err e) : e = .notOpened ∨ e = .notRun := by
  unfold generateProof at h
  cases hr : w.read inp with
  | none => rw [hr] at h; cases h; exact .inl rfl
  | some program =>
    rw [hr] at h
    simp only [Outcome.okOr, Outcome.bind_ok] at h
    split at h
    · cases h
    · cases h; exact .inr rfl
    · rename_i tab pi _
      cases hg : generateCairoProof env tab pi options with
      | ok p => rw [hg] at h; cases h
      | err e => cases e
      | panic => rw [hg] at h; cases h

theorem proveCommand_err {vm : Vm} {w : World} {args : List String} {e : Effect}
    (h : proveCommand env vm w args = .err e) : e = .notOpened ∨ e = .notRun := by
  unfold proveCommand at h
  split at h
  · rename_i inp out _
    cases hg : generateProof env vm w inp ProofOptions.defaultTestOptions with
    | err e' => rw [hg] at h; cases h; exact generateProof_err hg
    | panic => rw [hg] at h; cases h
    | ok x =>
      rw [hg] at h
      simp only [Outcome.bind_ok] at h
      cases hw : writeProofFile x.1 x.2 with
      | ok b =>
        rw [hw] at h
        simp only [Outcome.unwrapErr, Outcome.bind_ok] at h
        split at h <;> cases h
      | err e => cases e
      | panic => rw [hw] at h; cases h
  · cases h

/-- What `prove` did when it wrote a file. -/
theorem prove_wrote {vm : Vm} {w : World} {name inp out path : String} {file : Bytes} {args : List String}
    (h : Cli.main env vm w (name :: "prove" :: inp :: out :: args) = .ok (.wrote path file)) :
    path = out ∧ ∃ program tab pi proof, w.read inp = some program ∧
      generateProverArgs vm program (versionOf inp) none = .ok (tab, pi) ∧
      generateCairoProof env tab pi ProofOptions.defaultTestOptions = .ok proof ∧
      writeProofFile proof pi = .ok file := by
  simp only [Cli.main, if_true, finish] at h
  split at h
  · rename_i e he
    cases h
    simp only [proveCommand, Outcome.bind_eq_ok, Prod.exists] at he
    obtain ⟨proof, pi, hg, bytes, hw, he⟩ := he
    split at he
    · simp only [Outcome.pure_eq, Outcome.ok.injEq, Effect.wrote.injEq] at he
      obtain ⟨rfl, rfl⟩ := he
      refine ⟨rfl, ?_⟩
      unfold generateProof at hg
      simp only [Outcome.bind_eq_ok] at hg
      obtain ⟨program, hr, hg⟩ := hg
      have hr' : w.read inp = some program := by
        cases hc : w.read inp <;> simp_all [Outcome.okOr]
      split at hg
      · cases hg
      · cases hg
      · rename_i tab pi' hargs
        simp only [Outcome.bind_eq_ok, Outcome.pure_eq, Outcome.ok.injEq, Prod.mk.injEq, unwrapErr_ok] at hg
        obtain ⟨proof', hp, rfl, rfl⟩ := hg
        exact ⟨program, tab, pi', proof', hr', hargs, hp, unwrapErr_ok.mp hw⟩
    · simp at he
  · rename_i e he
    cases h
    rcases proveCommand_err he with h | h <;> cases h
  · cases h

/-- The public inputs of a run from the command line have distinct keys and numbers of 64 bits, and so have
the proofs of it. -/
theorem cli_wellformed {vm : Vm} {program : Bytes} {version : CairoVersion} {tab : TraceTable FE}
    {pi : PublicInputs} (h : generateProverArgs vm program version none = .ok (tab, pi)) {r : VmRun}
    {states : List RegistersState} (hvm : vm version (layoutOf version) program = .ok r)
    (hr : MachineRun r states) {proof : StarkProof FE}
    (hproof : generateCairoProof env tab pi ProofOptions.defaultTestOptions = .ok proof) :
    pi.WF ∧ MachineSized proof ∧ ∀ q ∈ proof.queryList, q.layersEvaluations ≠ [] := by
  obtain ⟨states', mem, size, rc, pi0, main, h1, h2, h3, rfl⟩ := generateProverArgs_ok h
  obtain ⟨mem', h1', -⟩ := runProgram_ok hvm hr
  rw [h1] at h1'
  simp only [Outcome.ok.injEq, Prod.mk.injEq] at h1'
  obtain ⟨rfl, rfl, rfl, rfl⟩ := h1'
  obtain ⟨hs1, hs2, hlt⟩ := cairo_proof_sized h3 (b := 2) (by decide) hproof
  refine ⟨?_, hs1, hs2⟩
  obtain ⟨-, -, -, hle, -, lo, hi, rfl⟩ := main_shape h3
  obtain ⟨-, -, -, -, -, -, -, -, hns, hms⟩ := fromRegsAndMem_regs h2
  obtain ⟨-, -, -, hwf, hseg⟩ := segments_cli (rangeCheckRange r)
  have hspec := rangeCheckRange_spec r
  refine ⟨?_, ?_, (publicCells_nodup h2 :), ?_⟩
  · show pi0.memorySegments.WF
    rw [hms]; exact hwf
  · show ∀ e ∈ pi0.memorySegments, _
    rw [hms]
    intro e he
    have := hseg e he
    cases hb : r.rangeCheckBuiltin with
    | none => rw [hspec.1 hb] at this; cases this
    | some x =>
      obtain ⟨idx, stop⟩ := x
      rw [hspec.2 idx stop hb] at this
      have hlt := hr.range idx stop hb
      rw [← Option.some.inj this]
      exact ⟨by simp only; omega, hlt⟩
  · show pi0.numSteps < _
    rw [hns]; omega

/-- What `verify` does with a file that can be read back. -/
theorem verify_reads {vm : Vm} {w : World} {name path : String} {file : Bytes} {args : List String}
    {proof : StarkProof FE} {pi : PublicInputs} (hread : w.read path = some file)
    (h : readProofFile file = .ok (proof, pi)) :
    Cli.main env vm w (name :: "verify" :: path :: args)
      = finish (verifyProof env proof pi ProofOptions.defaultTestOptions) := by
  have h1 : ¬ "verify" = "prove" := by decide
  simp only [Cli.main, if_neg h1, if_true, verifyCommand, hread, Outcome.okOr, Outcome.bind_ok, h]

theorem insertAll_length {K V : Type} [DecidableEq K] (l : List (K × V)) : (insertAll l).length ≤ l.length := by
  have h : ∀ (l : List (K × V)) (m : HMap K V),
      (l.foldl (fun m e => m.insert e.1 e.2) m).length ≤ m.length + l.length := by
    intro l
    induction l with
    | nil => intro m; simp
    | cons e t ih =>
      intro m
      have h1 := ih (m.insert e.1 e.2)
      have h2 : (m.insert e.1 e.2).length ≤ m.length + 1 := by
        have := congrArg List.length (HMap.keys_insert m e.1 e.2)
        rw [List.length_map] at this
        rw [this]
        split <;> simp
      simp only [List.foldl_cons, List.length_cons]
      omega
  simpa [insertAll] using h l []

/-- The number of bytes of public inputs. -/
theorem publicInputs_length (pi : PublicInputs) : pi.serialize.length
    ≤ 198 + 17 * pi.memorySegments.length + 64 * pi.publicMemory.length := by
  have h1 : ∀ o : Option UInt16, (serializeOptU16 o).length ≤ 3 := by
    intro o; cases o <;> simp [serializeOptU16]
  have h2 : (pi.memorySegments.flatMap serializeSegment).length = pi.memorySegments.length * 17 := by
    rw [List.length_flatMap]
    exact constant_sum _ _ _ fun e _ => by simp [serializeSegment]
  have h3 : (pi.publicMemory.flatMap fun e => feToBytesBe e.1 ++ feToBytesBe e.2).length
      = pi.publicMemory.length * 64 := by
    rw [List.length_flatMap]
    exact constant_sum _ _ _ fun e _ => by simp
  have h4 := h1 pi.rangeCheckMin
  have h5 := h1 pi.rangeCheckMax
  unfold PublicInputs.serialize
  simp only [List.length_append, length_beBytes, length_feToBytesBe, h2, h3]
  omega

/-- The file that `prove` writes for an honest run has fewer than `2^64` bytes. -/
theorem prove_file_length {vm : Vm} {w : World}
    {name inp out path : String} {rest : List String} {program file : Bytes}
    (hread : w.read inp = some program) {r : VmRun}
    (hvm : vm (versionOf inp) (layoutOf (versionOf inp)) program = .ok r) {m : FE → FE}
    {states : List RegistersState} (honest : HonestVmRun r m states) (hsize : r.dataLen < 2 ^ 57)
    (hprove : Cli.main env vm w (name :: "prove" :: inp :: out :: rest) = .ok (.wrote path file)) :
    file.length < 2 ^ 64 := by
  obtain ⟨rfl, program', tab, pi, proof, hr, hargs, hproof, hwrite⟩ := prove_wrote hprove
  rw [hread] at hr
  obtain rfl := Option.some.inj hr
  obtain ⟨hwf, hsized, -⟩ := cli_wellformed hargs hvm honest.toMachineRun hproof
  obtain ⟨states', mem, size, rc, pi0, main, h1, h2, h3, rfl⟩ := generateProverArgs_ok hargs
  obtain ⟨mem', h1', hmem⟩ := runProgram_ok hvm honest.toMachineRun
  rw [h1] at h1'
  simp only [Outcome.ok.injEq, Prod.mk.injEq] at h1'
  obtain ⟨rfl, rfl, rfl, rfl⟩ := h1'
  obtain ⟨mem0, hmem0, run⟩ := honest.run
  obtain ⟨ho, hrc, hsegs, -, -⟩ := segments_cli (rangeCheckRange r)
  have hspec := rangeCheckRange_spec r
  have hb : BuiltinValues mem (createMemorySegmentMap (rangeCheckRange r) none) := by
    intro s e hse n hs he
    rw [hrc] at hse
    cases hb : r.rangeCheckBuiltin with
    | none => rw [hspec.1 hb] at hse; cases hse
    | some x =>
      obtain ⟨idx, stop⟩ := x
      rw [hspec.2 idx stop hb] at hse
      obtain ⟨rfl, rfl⟩ := Prod.mk.inj (Option.some.inj hse)
      obtain ⟨v, h4, h5⟩ := honest.builtin idx stop hb n hs he
      exact ⟨v, (hmem n).trans h4, h5⟩
  have hrun := HonestRun.same run fun a => (hmem a).trans (hmem0 a).symm
  have hout : OutputAfterProgram r.dataLen (createMemorySegmentMap (rangeCheckRange r) none) := by
    intro s e h; rw [ho] at h; cases h
  have hcov : OutputCovered m states' r.dataLen (createMemorySegmentMap (rangeCheckRange r) none) :=
    covered_of_no_output ho
  have hsq : ¬ IsSquare (ProofOptions.defaultTestOptions.cosetOffset : FE) := by
    exact_mod_cast three_not_square
  obtain ⟨⟨a, ha, hlen⟩, hw, hhd, -, -, lo, hi, hpi'⟩ := main_shape h3
  obtain ⟨bs, hbs1, hbs2⟩ := C62_cairo_proof_size (b := 2) hrun h2 honest.size
    ((hmem 0).trans honest.zero) honest.pc hsegs hb hout hcov h3 hlen (by norm_num) (by decide) hsq hproof
  have ha64 : a < 64 := by
    obtain ⟨-, -, hlt⟩ := cairo_proof_sized h3 (b := 2) (by decide) hproof
    rw [hlen] at hlt
    exact (Nat.pow_lt_pow_iff_right (by norm_num)).1 hlt
  unfold writeProofFile at hwrite
  rw [hbs1] at hwrite
  simp only [Outcome.bind_ok, Outcome.pure_eq, Outcome.ok.injEq] at hwrite
  have hpm : pi.publicMemory.length ≤ r.dataLen := by
    rw [hpi']
    show pi0.publicMemory.length ≤ _
    unfold fromRegsAndMem at h2
    simp only [Outcome.bind_eq_ok, Outcome.pure_eq, Outcome.ok.injEq, ho] at h2
    obtain ⟨prog, hp, out, rfl, last, -, first, -, rfl⟩ := h2
    refine (insertAll_length _).trans ?_
    have := (mapOutcome_mem hp).1
    rw [List.length_range'] at this
    simp [this]
  have hms : pi.memorySegments.length ≤ 1 := by
    obtain ⟨-, -, -, -, -, -, -, -, -, hms⟩ := fromRegsAndMem_regs h2
    rw [hpi']
    show pi0.memorySegments.length ≤ 1
    rw [hms]
    cases rangeCheckRange r <;> simp [createMemorySegmentMap, HMap.insert]
  have hpil := publicInputs_length pi
  have hq : queryBytes a 2 ≤ 2 ^ 20 := by
    rw [C62_query_bytes]
    have : a * a ≤ 63 * 63 := Nat.mul_le_mul (by omega) (by omega)
    omega
  have hc : (if createMemorySegmentMap (rangeCheckRange r) none = [] then 52 else 61) ≤ 61 := by
    split <;> norm_num
  generalize (if createMemorySegmentMap (rangeCheckRange r) none = [] then 52 else 61) = cols at hc hbs2
  have hpb : bs.length ≤ 2 ^ 30 := by
    rw [hbs2]
    have : ProofOptions.defaultTestOptions.friNumberOfQueries = 3 := rfl
    simp only [proofBytes, openingBytes, pathBytes, this]
    omega
  rw [← hwrite]
  simp only [List.length_append, length_beBytes]
  omega

/-- **C59**: when the virtual machine ran the program (of either version) honestly and `prove` wrote a
file, then it wrote it to the output path, and `verify` on that file reports success, for runs of any
length. -/
theorem C59_prove_then_verify (hta : env.ta = starkRoots) {vm vm' : Vm} {w w' : World}
    {name name' inp out path : String} {rest rest' : List String} {program file : Bytes}
    (hread : w.read inp = some program) {version : CairoVersion}
    {layout : CairoLayout} (has : RunAs inp version layout) {r : VmRun}
    (hvm : vm version layout program = .ok r) {m : FE → FE}
    {states : List RegistersState} (honest : HonestVmRun r m states) (hsize : r.dataLen < 2 ^ 57)
    (hprove : Cli.main env vm w (name :: "prove" :: inp :: out :: rest) = .ok (.wrote path file))
    (hread' : w'.read path = some file) :
    path = out ∧
    Cli.main env vm' w' (name' :: "verify" :: path :: rest') = .ok (.verdict true) := by
  obtain ⟨rfl, rfl⟩ := runAs_version has
  have hfile := prove_file_length hread hvm honest hsize hprove
  obtain ⟨rfl, program', tab, pi, proof, hr, hargs, hproof, hwrite⟩ := prove_wrote hprove
  rw [hread] at hr
  obtain rfl := Option.some.inj hr
  refine ⟨rfl, ?_⟩
  obtain ⟨hwf, hsized, -⟩ := cli_wellformed hargs hvm honest.toMachineRun hproof
  obtain ⟨states', mem, size, rc, pi0, main, h1, h2, h3, rfl⟩ := generateProverArgs_ok hargs
  obtain ⟨mem', h1', hmem⟩ := runProgram_ok hvm honest.toMachineRun
  rw [h1] at h1'
  simp only [Outcome.ok.injEq, Prod.mk.injEq] at h1'
  obtain ⟨rfl, rfl, rfl, rfl⟩ := h1'
  obtain ⟨mem0, hmem0, run⟩ := honest.run
  obtain ⟨ho, hrc, hsegs, -, -⟩ := segments_cli (rangeCheckRange r)
  have hspec := rangeCheckRange_spec r
  have hb : BuiltinValues mem (createMemorySegmentMap (rangeCheckRange r) none) := by
    intro s e hse n hs he
    rw [hrc] at hse
    cases hb : r.rangeCheckBuiltin with
    | none => rw [hspec.1 hb] at hse; cases hse
    | some x =>
      obtain ⟨idx, stop⟩ := x
      rw [hspec.2 idx stop hb] at hse
      obtain ⟨rfl, rfl⟩ := Prod.mk.inj (Option.some.inj hse)
      obtain ⟨v, h4, h5⟩ := honest.builtin idx stop hb n hs he
      exact ⟨v, (hmem n).trans h4, h5⟩
  have hrun := HonestRun.same run fun a => (hmem a).trans (hmem0 a).symm
  have hout : OutputAfterProgram r.dataLen (createMemorySegmentMap (rangeCheckRange r) none) := by
    intro s e h; rw [ho] at h; cases h
  have hcov : OutputCovered m states' r.dataLen (createMemorySegmentMap (rangeCheckRange r) none) :=
    covered_of_no_output ho
  have hsq : ¬ IsSquare (ProofOptions.defaultTestOptions.cosetOffset : FE) := by
    exact_mod_cast three_not_square
  rw [verify_reads hread' (C08_proof_file_roundtrip proof pi hsized hwf file hwrite hfile)]
  have hv := C44_cairo_honest_proofs_verify hta hrun h2 honest.size ((hmem 0).trans honest.zero) honest.pc
    hsegs hb hout hcov h3 (b := 2) (by norm_num) (by decide) hsq hproof
  simp only [verifyProof, hv, Outcome.unwrapErr, Outcome.bind_ok, Outcome.pure_eq, finish]

/-- **C59**: for every honest run the prover's arguments can be built, and `prove` then writes a file to a
writable path, if no denominator is zero for the challenges drawn after the commitment to the trace, the
sampling of the out-of-domain point ends and a nonce exists. -/
theorem C59_prove_writes (hta : env.ta = starkRoots) {vm : Vm} {w : World}
    {name inp out : String} {rest : List String} {program : Bytes}
    (hread : w.read inp = some program) (hwritable : w.writable out = true) {version : CairoVersion}
    {layout : CairoLayout} (has : RunAs inp version layout) {r : VmRun}
    (hvm : vm version layout program = .ok r) {m : FE → FE}
    {states : List RegistersState} (honest : HonestVmRun r m states)
    {tab : TraceTable FE} {pi : PublicInputs}
    (hargs : generateProverArgs vm program version none = .ok (tab, pi))
    {a : Nat} (hlen : tab.nRows = 2 ^ a) (hab : a + 2 < 64)
    (hmem : ∀ root, CommitmentTo env (air (2 ^ a) pi ProofOptions.defaultTestOptions) tab root →
      ∀ e ∈ accesses (tableRows tab) ++ pi.publicMemory,
        (challengesAfter env (air (2 ^ a) pi ProofOptions.defaultTestOptions) root).zMemory
          ≠ e.1 + (challengesAfter env (air (2 ^ a) pi ProofOptions.defaultTestOptions) root).alphaMemory * e.2)
    (hrc : ∀ root, CommitmentTo env (air (2 ^ a) pi ProofOptions.defaultTestOptions) tab root →
      ∀ x ∈ getCols (tableRows tab) [OFF_DST, OFF_OP0, OFF_OP1],
        (challengesAfter env (air (2 ^ a) pi ProofOptions.defaultTestOptions) root).zRangeCheck ≠ x)
    (hz : SamplingEnds env (air (2 ^ a) pi ProofOptions.defaultTestOptions))
    (hgrind : ∀ challenge, Grinding.generateNonce env.keccak challenge 1 ≠ none) :
    ∃ file, Cli.main env vm w (name :: "prove" :: inp :: out :: rest) = .ok (.wrote out file) := by
  obtain ⟨rfl, rfl⟩ := runAs_version has
  obtain ⟨states', mem, size, rc, pi0, main, h1, h2, h3, rfl⟩ := generateProverArgs_ok hargs
  obtain ⟨mem', h1', hmem'⟩ := runProgram_ok hvm honest.toMachineRun
  rw [h1] at h1'
  simp only [Outcome.ok.injEq, Prod.mk.injEq] at h1'
  obtain ⟨rfl, rfl, rfl, rfl⟩ := h1'
  obtain ⟨mem0, hmem0, run⟩ := honest.run
  obtain ⟨ho, hrcs, hsegs, -, -⟩ := segments_cli (rangeCheckRange r)
  have hspec := rangeCheckRange_spec r
  obtain ⟨-, hw, hhd, -, -, lo, hi, hpi'⟩ := main_shape h3
  have hk : 0 < mainWidth pi0 := by have := mainWidth_ge pi0; omega
  have hrows : tableRows ⟨main.flatten, (main.headD []).length⟩ = main := by
    rw [hhd]; exact tableRows_ofRows hk hw
  have hn : main.length = 2 ^ a := by
    rw [← hlen, hhd]; exact (TraceTable.nRows_ofRows main _ hk hw).symm
  rw [hrows] at hmem hrc
  have hpipm : pi.publicMemory = pi0.publicMemory := by rw [hpi']
  rw [hpipm] at hmem
  obtain ⟨proof, hproof⟩ := C44_cairo_prover_succeeds hta
    (HonestRun.same run fun a => (hmem' a).trans (hmem0 a).symm)
    h2 honest.size ((hmem' 0).trans honest.zero) honest.pc hsegs
    (by
      intro s e hse n hs he
      rw [hrcs] at hse
      cases hb : r.rangeCheckBuiltin with
      | none => rw [hspec.1 hb] at hse; cases hse
      | some x =>
        obtain ⟨idx, stop⟩ := x
        rw [hspec.2 idx stop hb] at hse
        obtain ⟨rfl, rfl⟩ := Prod.mk.inj (Option.some.inj hse)
        obtain ⟨v, h4, h5⟩ := honest.builtin idx stop hb n hs he
        exact ⟨v, (hmem' n).trans h4, h5⟩)
    (by intro s e h; rw [ho] at h; cases h) (covered_of_no_output ho) h3
    (options := ProofOptions.defaultTestOptions) (b := 2) hn hab
    (by norm_num) (by decide) (by exact_mod_cast three_not_square) hmem hrc hz hgrind
  obtain ⟨-, -, hlayers⟩ := cli_wellformed hargs hvm honest.toMachineRun hproof
  obtain ⟨bs, hbs⟩ := (C01_serialize_total_iff proof).2 hlayers
  have hwrite : ∃ file, writeProofFile proof pi = .ok file := by
    unfold writeProofFile
    rw [hbs]
    exact ⟨_, rfl⟩
  obtain ⟨file, hfile⟩ := hwrite
  refine ⟨file, ?_⟩
  simp only [Cli.main, if_true, proveCommand, generateProof, hread, Outcome.okOr, Outcome.bind_ok, hargs,
    hproof, Outcome.unwrapErr, Outcome.pure_eq, hfile, hwritable, finish]

/-- **C59**: the prover's arguments can be built for every honest run of a program whose cells the memory
holds. -/
theorem C59_prover_args {vm : Vm} {version : CairoVersion} {layout : CairoLayout}
    (hl : LayoutFor version layout) {program : Bytes} {r : VmRun}
    (hvm : vm version layout program = .ok r) {m : FE → FE}
    {states : List RegistersState} (honest : HonestVmRun r m states)
    (hprog : ∀ n, 1 ≤ n → n ≤ r.dataLen → (r.relocatedMemory[n]?).join ≠ none) :
    ∃ tab pi, generateProverArgs vm program version none = .ok (tab, pi) := by
  obtain rfl := layoutFor_eq hl
  obtain ⟨mem, h1, hmem⟩ := runProgram_ok hvm honest.toMachineRun
  obtain ⟨mem0, hmem0, run0⟩ := honest.run
  have run := HonestRun.same run0 fun a => (hmem a).trans (hmem0 a).symm
  obtain ⟨ho, hrcs, -, -, -⟩ := segments_cli (rangeCheckRange r)
  have hspec := rangeCheckRange_spec r
  have hcells : ∃ cells, publicCells mem 1 r.dataLen = .ok cells := by
    refine Verif.ExecTrace.mapOutcome_exists fun n hn => ?_
    rw [List.mem_range'_1] at hn
    obtain ⟨v, hv⟩ := Option.ne_none_iff_exists'.1 (hprog n hn.1 (by omega))
    exact ⟨((n : FE), v), by rw [memGet, hmem n, hv]; rfl⟩
  obtain ⟨cells, hcells⟩ := hcells
  have hlast := List.getLast?_eq_getLast_of_ne_nil run.nonempty
  have hfirst := List.head?_eq_some_head run.nonempty
  have hpi : ∃ pi, fromRegsAndMem states mem r.dataLen (createMemorySegmentMap (rangeCheckRange r) none)
      = .ok pi := by
    unfold fromRegsAndMem
    rw [hcells, ho]
    simp only [Outcome.bind_ok, Outcome.pure_eq, hlast, hfirst, Outcome.ofOptionUnwrap]
    exact ⟨_, rfl⟩
  obtain ⟨pi, hpi⟩ := hpi
  obtain ⟨-, -, -, -, -, -, -, -, -, hms⟩ := fromRegsAndMem_regs hpi
  obtain ⟨rows, pi', hrows⟩ := main_exists run (pi := pi) (by
    rw [hms]
    intro s e hse n hs he
    rw [hrcs] at hse
    cases hb : r.rangeCheckBuiltin with
    | none => rw [hspec.1 hb] at hse; cases hse
    | some x =>
      obtain ⟨idx, stop⟩ := x
      rw [hspec.2 idx stop hb] at hse
      obtain ⟨rfl, rfl⟩ := Prod.mk.inj (Option.some.inj hse)
      obtain ⟨v, h4, h5⟩ := honest.builtin idx stop hb n hs he
      exact ⟨v, (hmem n).trans h4, h5⟩)
  refine ⟨⟨rows.flatten, (rows.headD []).length⟩, pi', ?_⟩
  simp only [generateProverArgs, h1, Outcome.bind_ok, hpi, hrows, Outcome.unwrapErr, Outcome.pure_eq]

/-! ## C60: `prove_and_verify` -/

/-- **C60**: whatever the virtual machine did, if `prove` wrote a file then `verify` on that file ends in
the same way as `prove_and_verify` on the program. -/
theorem C60_prove_and_verify {vm vm' : Vm} {w w' : World} {name name' name'' inp out path : String}
    {rest rest' rest'' : List String} {program file : Bytes}
    (hread : w.read inp = some program) {version : CairoVersion}
    {layout : CairoLayout} (has : RunAs inp version layout) {r : VmRun}
    (hvm : vm version layout program = .ok r)
    {states : List RegistersState} (hr : MachineRun r states)
    (hprove : Cli.main env vm w (name :: "prove" :: inp :: out :: rest) = .ok (.wrote path file))
    (hfile : file.length < 2 ^ 64) (hread' : w'.read path = some file) :
    Cli.main env vm' w' (name' :: "verify" :: path :: rest')
      = Cli.main env vm w (name'' :: "prove_and_verify" :: inp :: rest'') := by
  obtain ⟨rfl, rfl⟩ := runAs_version has
  obtain ⟨rfl, program', tab, pi, proof, hr', hargs, hproof, hwrite⟩ := prove_wrote hprove
  rw [hread] at hr'
  obtain rfl := Option.some.inj hr'
  obtain ⟨hwf, hsized, -⟩ := cli_wellformed hargs hvm hr hproof
  rw [verify_reads hread' (C08_proof_file_roundtrip proof pi hsized hwf file hwrite hfile)]
  have h1 : ¬ "prove_and_verify" = "prove" := by decide
  have h2 : ¬ "prove_and_verify" = "verify" := by decide
  simp only [Cli.main, if_neg h1, if_neg h2, if_true, proveAndVerifyCommand, generateProof, hread,
    Outcome.okOr, Outcome.bind_ok, hargs, hproof, Outcome.unwrapErr, Outcome.pure_eq]

/-! ## C61: what an accepted file means -/

/-- **C61** in part: `verify` reports success exactly for the files that decode to a proof and public inputs
that the verifier accepts. Missing: that these public inputs are those of a run; they need not be
(`C61_forged_file_accepted`). -/
theorem C61_accepted_files_partial {vm : Vm} {w : World} {name path : String} {rest : List String} :
    Cli.main env vm w (name :: "verify" :: path :: rest) = .ok (.verdict true) ↔
      ∃ file proof pi, w.read path = some file ∧ readProofFile file = .ok (proof, pi) ∧
        verifyCairoProof env proof pi ProofOptions.defaultTestOptions = .ok true := by
  constructor
  · intro h
    have h1 : ¬ "verify" = "prove" := by decide
    simp only [Cli.main, if_neg h1, if_true, verifyCommand] at h
    cases hr : w.read path with
    | none => rw [hr] at h; cases h
    | some file =>
      rw [hr] at h
      simp only [Outcome.okOr, Outcome.bind_ok] at h
      cases hf : readProofFile file with
      | panic => rw [hf] at h; cases h
      | err e => rw [hf] at h; cases h
      | ok x =>
        obtain ⟨proof, pi⟩ := x
        rw [hf] at h
        refine ⟨file, proof, pi, rfl, hf, ?_⟩
        simp only [verifyProof] at h
        cases hv : verifyCairoProof env proof pi ProofOptions.defaultTestOptions with
        | panic => rw [hv] at h; cases h
        | err e => cases e
        | ok b =>
          rw [hv] at h
          simp only [Outcome.unwrapErr, Outcome.bind_ok, Outcome.pure_eq, finish, Outcome.ok.injEq,
            Effect.verdict.injEq] at h
          rw [h]
  · rintro ⟨file, proof, pi, h1, h2, h3⟩
    rw [verify_reads h1 h2]
    simp only [verifyProof, h3, Outcome.unwrapErr, Outcome.bind_ok, Outcome.pure_eq, finish]

theorem forgery_bytes (n : Nat) (root compositionRoot : Commitment) (frame : Frame FE) (even odd last : FE)
    (queries nonce : Nat) :
    ∃ bs, (forgery n root compositionRoot frame even odd last queries nonce).serialize = .ok bs ∧
      bs.length = 248 + 32 * frame.data.length + queries * 80 := by
  obtain ⟨bs, h⟩ := (C01_serialize_total_iff
    (forgery n root compositionRoot frame even odd last queries nonce)).2 (by
    intro q hq
    rw [(List.mem_replicate.1 hq).2]
    simp)
  refine ⟨bs, h, ?_⟩
  unfold StarkProof.serialize at h
  simp only [Outcome.bind_eq_ok, Outcome.pure_eq, Outcome.ok.injEq] at h
  obtain ⟨qs, hqs, rfl⟩ := h
  have hq := queries_length (n := 80) hqs (by
    intro q hq b hb
    rw [(List.mem_replicate.1 hq).2] at hb
    simp only [FriDecommitment.serialize, Outcome.ok.injEq] at hb
    subst hb
    simp [elements_length])
  rw [show (forgery n root compositionRoot frame even odd last queries nonce).queryList.length = queries from
    List.length_replicate] at hq
  simp only [List.length_append, length_beBytes, length_feToBytesBe, roots_length, hq, compositionRoot.2,
    forgery, Frame.serialize, elements_length, List.length_singleton, List.length_nil, List.flatMap_nil]
  omega

theorem segments_le {m : MemorySegmentMap} (h : m.WF) : m.length ≤ 2 := by
  have h1 : m.map Prod.fst ⊆ [.rangeCheck, .output] := by
    intro x _
    cases x <;> simp
  have := (List.Nodup.subperm h h1).length_le
  simpa using this

/-- The commitment of 32 zero bytes. -/
def zeroRoot : Commitment := ⟨List.replicate 32 0, List.length_replicate⟩

/-- The proof that is forged for a claim of `2^a` rows: all commitments are `root` and all out-of-domain values of
the trace are zero. -/
def zeroForgery (root : Commitment) (a : Nat) (pi : PublicInputs) (even : FE) (nonce : Nat) : StarkProof FE :=
  forgery (2 ^ a) root root
    ⟨(List.replicate 2 (List.replicate (traceColumns (hasRcBuiltin pi)) 0)).flatten,
      (air (2 ^ a) pi ProofOptions.defaultTestOptions).context.traceColumns⟩ even 0 0
    ProofOptions.defaultTestOptions.friNumberOfQueries nonce

/-- The file of a forged proof. Its length does not depend on the number of rows it claims. -/
theorem forged_file_of (pi : PublicInputs) (hwf : pi.WF) (hsize : pi.publicMemory.length < 2 ^ 57) {a : Nat}
    (hab : a + 2 < 64) {root : Commitment} {even : FE} {nonce : Nat} (hnonce : nonce < 2 ^ 64)
    (hv : verify env CairoAir.new (zeroForgery root a pi even nonce) pi ProofOptions.defaultTestOptions = .ok true) :
    ∃ file proof, readProofFile file = .ok (proof, pi) ∧ proof.traceLength = 2 ^ a ∧
      proof.queryList.length = 3 ∧
      file.length = 496 + 64 * traceColumns (hasRcBuiltin pi) + pi.serialize.length ∧
      verifyCairoProof env proof pi ProofOptions.defaultTestOptions = .ok true := by
  unfold zeroForgery at hv
  have hcols : (air (2 ^ a) pi ProofOptions.defaultTestOptions).context.traceColumns ≤ 61 := by
    show traceColumns (hasRcBuiltin pi) ≤ 61
    cases hasRcBuiltin pi <;> decide
  obtain ⟨bs, hbs, hlen⟩ := forgery_bytes (2 ^ a) root root
    ⟨(List.replicate 2 (List.replicate (traceColumns (hasRcBuiltin pi)) 0)).flatten,
      (air (2 ^ a) pi ProofOptions.defaultTestOptions).context.traceColumns⟩ even 0 0
    ProofOptions.defaultTestOptions.friNumberOfQueries nonce
  have hdata : (List.replicate 2 (List.replicate (traceColumns (hasRcBuiltin pi)) (0 : FE))).flatten.length
      ≤ 122 := by
    simp only [List.length_flatten, List.map_replicate, List.length_replicate, List.sum_replicate, smul_eq_mul]
    have : traceColumns (hasRcBuiltin pi) ≤ 61 := by cases hasRcBuiltin pi <;> decide
    omega
  have hcw : (air (2 ^ a) pi ProofOptions.defaultTestOptions).context.traceColumns < 2 ^ 64 := by
    show traceColumns (hasRcBuiltin pi) < _
    have : traceColumns (hasRcBuiltin pi) ≤ 61 := by cases hasRcBuiltin pi <;> decide
    omega
  have hpil := publicInputs_length pi
  have hsl := segments_le hwf.segs_wf
  have hq : ProofOptions.defaultTestOptions.friNumberOfQueries = 3 := rfl
  rw [hq] at hlen
  simp only at hlen
  generalize hp : forgery (2 ^ a) _ _ _ even 0 0 _ nonce = proof at hbs
  have hsized : MachineSized proof := by
    subst hp
    exact ⟨Nat.pow_lt_pow_right (by norm_num) (by omega), hnonce, hcw⟩
  have hread := C08_proof_file_roundtrip proof pi hsized hwf (beBytes 8 bs.length ++ bs ++ pi.serialize) (by
      unfold writeProofFile
      rw [hbs]
      rfl) (by
      simp only [List.length_append, length_beBytes, hlen]
      omega)
  replace hv : verify env CairoAir.new proof pi ProofOptions.defaultTestOptions = .ok true := by
    rw [← hp]
    exact hv
  refine ⟨_, _, hread, by rw [← hp]; rfl, by rw [← hp]; rfl, ?_, hv⟩
  simp only [List.length_append, length_beBytes, hlen, List.length_flatten, List.map_replicate, List.length_replicate,
    List.sum_replicate, smul_eq_mul]
  omega

/-- The file of a forged proof. Its length does not depend on the number of rows it claims. -/
theorem forged_file (pi : PublicInputs) (hwf : pi.WF) (hsize : pi.publicMemory.length < 2 ^ 57)
    (hsteps : pi.numSteps ≠ 0)
    (hmin : pi.rangeCheckMin ≠ none) (hmax : pi.rangeCheckMax ≠ none) {a : Nat} (ha : 1 ≤ a)
    (hab : a + 2 < 64) (had : a + 2 < env.ta.adicity)
    {root : Commitment} (hmem : ∀ e ∈ pi.publicMemory,
      (challengesAfter env (air (2 ^ a) pi ProofOptions.defaultTestOptions) root).zMemory
        ≠ e.1 + (challengesAfter env (air (2 ^ a) pi ProofOptions.defaultTestOptions) root).alphaMemory * e.2)
    (hz : SamplingEnds env (air (2 ^ a) pi ProofOptions.defaultTestOptions))
    (hgrind : ∀ challenge, Grinding.generateNonce env.keccak challenge 1 ≠ none) :
    ∃ file proof, readProofFile file = .ok (proof, pi) ∧ proof.traceLength = 2 ^ a ∧
      proof.queryList.length = 3 ∧
      file.length = 496 + 64 * traceColumns (hasRcBuiltin pi) + pi.serialize.length ∧
      verifyCairoProof env proof pi ProofOptions.defaultTestOptions = .ok true := by
  have S := cairo_setting ha pi
  have key := C46_forged_proof_accepted (env := env) (new := CairoAir.new) (pi := pi) S hab had three_not_square rfl
    rfl (fun ch => ⟨_, air_polynomial _ _ _ ch⟩) root root (by
      obtain ⟨cs, hcs⟩ := boundary_exists pi hsteps hmin hmax (n := 2 ^ a) (by positivity) _ hmem
      exact ⟨cs, hcs, boundary_columns hcs⟩) hz hgrind
    (rows := List.replicate 2 (List.replicate (traceColumns (hasRcBuiltin pi)) 0)) rfl
    (fun r hr => by rw [(List.mem_replicate.mp hr).2, List.length_replicate]; rfl) 0 0 le_rfl
  obtain ⟨even, nonce, hnonce, hv⟩ := key
  exact forged_file_of pi hwf hsize hab hnonce hv

/-- **C61** refuted: for every claimed run, of any length, whose public inputs have distinct keys, a step and
bounds for the range check, and for every commitment after which the challenges drawn are not in the public
memory, there is a file with these public inputs that `verify` accepts, assembled without a run. -/
theorem C61_forged_file_accepted (pi : PublicInputs) (hwf : pi.WF) (hsize : pi.publicMemory.length < 2 ^ 57)
    (hsteps : pi.numSteps ≠ 0)
    (hmin : pi.rangeCheckMin ≠ none) (hmax : pi.rangeCheckMax ≠ none) {a : Nat} (ha : 1 ≤ a)
    (hab : a + 2 < 64) (had : a + 2 < env.ta.adicity)
    {root : Commitment} (hmem : ∀ e ∈ pi.publicMemory,
      (challengesAfter env (air (2 ^ a) pi ProofOptions.defaultTestOptions) root).zMemory
        ≠ e.1 + (challengesAfter env (air (2 ^ a) pi ProofOptions.defaultTestOptions) root).alphaMemory * e.2)
    (hz : SamplingEnds env (air (2 ^ a) pi ProofOptions.defaultTestOptions))
    (hgrind : ∀ challenge, Grinding.generateNonce env.keccak challenge 1 ≠ none) :
    ∃ file proof, readProofFile file = .ok (proof, pi) ∧
      ∀ (vm : Vm) (w : World) (name path : String) (rest : List String), w.read path = some file →
        Cli.main env vm w (name :: "verify" :: path :: rest) = .ok (.verdict true) := by
  obtain ⟨file, proof, hread, -, -, -, hv⟩ := forged_file pi hwf hsize hsteps hmin hmax ha hab had hmem hz hgrind
  exact ⟨_, _, hread, fun vm w name path rest hr => C61_accepted_files_partial.2 ⟨_, _, _, hr, hread, hv⟩⟩

open Verif.Examples in
/-- **C61** refuted: there are public inputs that no trace satisfies, for any challenges, and a file with
these public inputs that `verify` accepts, with any transcript and hash functions whose sampling ends and
that admit a nonce. -/
theorem C61_false_file_accepted :
    ∃ pi : PublicInputs,
      (∀ (rows : List (List FE)) width options ch, ¬ Satisfies (air rows.length pi options) rows width ch) ∧
      ∀ {T : Type} (env : Env FE T) (a : Nat), 1 ≤ a → a + 2 < 64 → env.ta = starkRoots →
        SamplingEnds env (air (2 ^ a) pi ProofOptions.defaultTestOptions) →
        (∀ challenge, Grinding.generateNonce env.keccak challenge 1 ≠ none) →
        ∃ file proof, readProofFile file = .ok (proof, pi) ∧
          ∀ (vm : Vm) (w : World) (name path : String) (rest : List String), w.read path = some file →
            Cli.main env vm w (name :: "verify" :: path :: rest) = .ok (.verdict true) := by
  refine ⟨falseStatement, falseStatement_unsatisfiable, fun env a ha hab hta hz hg => ?_⟩
  exact C61_forged_file_accepted falseStatement ⟨List.nodup_nil, by simp [falseStatement], List.nodup_nil, by decide⟩
    (by decide) (by decide) (by decide) (by decide) ha hab (by rw [hta]; show _ < 192; omega)
    (root := zeroRoot) (fun e he => by cases he) hz hg

/-- The hypotheses are met: a file for the false statement with two rows. -/
example : ∃ file proof, readProofFile file = .ok (proof, falseStatement) ∧
    ∀ (vm : Vm) (w : World) (name path : String) (rest : List String), w.read path = some file →
      Cli.main Verif.Examples.envStark vm w (name :: "verify" :: path :: rest) = .ok (.verdict true) :=
  C61_forged_file_accepted falseStatement ⟨List.nodup_nil, by simp [falseStatement], List.nodup_nil, by decide⟩
    (by decide) (by decide) (by decide) (by decide) (a := 1) le_rfl (by norm_num)
    (by show _ < 192; norm_num) (root := zeroRoot) (fun e he => by cases he)
    (samplingEnds_of (cairo_setting le_rfl falseStatement) fun lde trace t h1 h2 => Verif.Examples.sampleZOodStark lde trace t (by rw [h1, h2]; norm_num))
    Verif.Examples.generateNonce_stark

namespace Examples

/-- What the virtual machine leaves behind after the run of `simple_program`. -/
def run0 : VmRun where
  relocatedTrace := some Verif.Examples.states
  relocatedMemory := [none, some 0x480680017fff8000, some 3, some 0x400680017fff7fff, some 3,
    some 0x208b7fff7fff7ffe, some 9, some 9, some 3]
  dataLen := 5
  rangeCheckBuiltin := none
  segmentSize := fun _ => none

theorem run0_machine : MachineRun run0 Verif.Examples.states where
  trace := rfl
  regs := by decide
  cells := by decide
  range := by intro idx stop h; cases h

theorem run0_memory : MemoryOf run0 Verif.Examples.mem := by
  intro a
  by_cases h : a < 9
  · interval_cases a <;> decide +kernel
  · have h1 : run0.relocatedMemory[a]? = none := List.getElem?_eq_none (by
      show 9 ≤ a; omega)
    rw [h1]
    cases hg : Verif.Examples.mem.get? a with
    | none => rfl
    | some v =>
      have hm := HMap.mem_of_get?_eq_some hg
      simp only [Verif.Examples.mem, List.mem_cons, Prod.mk.injEq, List.not_mem_nil, or_false] at hm
      omega

theorem run0_honest : HonestVmRun run0 Verif.Examples.m Verif.Examples.states where
  toMachineRun := run0_machine
  run := ⟨_, run0_memory, example_run⟩
  zero := rfl
  size := by decide
  pc := ⟨⟨1, 8, 8⟩, by decide, by decide⟩
  builtin := by intro idx stop h; cases h

/-- A virtual machine that runs every program in this way, and a file system. -/
def vm0 : Vm := fun _ _ _ => .ok run0
def world0 : World := ⟨fun _ => some [], fun _ => true⟩

theorem args0 : generateProverArgs vm0 [] .v0 none
    = .ok (⟨Verif.Examples.main0.1.flatten, (Verif.Examples.main0.1.headD []).length⟩,
      Verif.Examples.main0.2) := by
  have h1 : runProgram vm0 (layoutOf .v0) [] .v0 = .ok (Verif.Examples.states, Verif.Examples.mem, 5, none) := by
    decide +kernel
  unfold generateProverArgs
  rw [h1, Outcome.bind_ok]
  have h2 : fromRegsAndMem Verif.Examples.states Verif.Examples.mem 5 (createMemorySegmentMap none none)
    = .ok Verif.Examples.pi0 := Verif.Examples.pi0_eq
  simp only [h2, Outcome.unwrapErr, Outcome.bind_ok, Verif.Examples.main0_eq, Outcome.pure_eq]

theorem simple_runAs : RunAs "simple.json" .v0 .small :=
  .cairo0 (fun h => absurd ((isCasm_iff _).1 h) (by decide)) .v0

/-- The command `prove` writes a file for this run. -/
theorem prove0 : ∃ file, Cli.main Verif.Examples.envFar vm0 world0
    ["prover", "prove", "simple.json", "simple.proof"] = .ok (.wrote "simple.proof" file) := by
  have hn : (⟨Verif.Examples.main0.1.flatten, (Verif.Examples.main0.1.headD []).length⟩ :
      TraceTable FE).nRows = 2 ^ 3 := by decide +kernel
  have hrows : tableRows ⟨Verif.Examples.main0.1.flatten, (Verif.Examples.main0.1.headD []).length⟩
      = Verif.Examples.main0.1 := by decide +kernel
  have hpm : Verif.Examples.main0.2.publicMemory = Verif.Examples.pi0.publicMemory := by decide +kernel
  refine C59_prove_writes (a := 3) (vm := vm0) (program := []) rfl rfl rfl simple_runAs rfl run0_honest
    args0 hn (by norm_num) ?_ ?_
    (samplingEnds_of (cairo_setting (by norm_num) _) fun lde trace t h1 h2 => Verif.Examples.sampleZOodFar lde trace t (by rw [h1, h2]; norm_num))
    Verif.Examples.generateNonce_stark
  · rw [hrows, hpm]; exact fun _ _ => far_memory _
  · rw [hrows]; exact fun _ _ => far_offsets _

/-- The file that `prove` writes for this run is accepted by `verify`. -/
example : ∃ file, Cli.main Verif.Examples.envFar vm0 world0
      ["prover", "prove", "simple.json", "simple.proof"] = .ok (.wrote "simple.proof" file) ∧
    Cli.main Verif.Examples.envFar vm0 ⟨fun _ => some file, fun _ => true⟩
      ["prover", "verify", "simple.proof"] = .ok (.verdict true) := by
  obtain ⟨file, h⟩ := prove0
  exact ⟨file, h, (C59_prove_then_verify (vm := vm0) (w := world0) (program := []) rfl rfl simple_runAs rfl run0_honest
    (by decide) h rfl).2⟩

/-- The hypotheses of C58 are met by the run above, and by one with a range-check builtin in segment 2, of
which three cells are used. -/
example : ∃ mem range, runProgram vm0 .small [] .v0 = .ok (Verif.Examples.states, mem, run0.dataLen, range) ∧
    MemoryOf run0 mem ∧ IsRangeCheckRange run0 range :=
  C58_run_program rfl run0_machine

def run1 : VmRun where
  relocatedTrace := some [⟨10, 20, 1⟩]
  relocatedMemory := [none, some 5, some 6, none, some 7]
  dataLen := 2
  rangeCheckBuiltin := some (2, some 3)
  segmentSize := fun i => [some 2, none, some 9][i]?.join

example : ∃ mem, runProgram (fun _ _ _ => .ok run1) .small [] .v0
      = .ok ([⟨10, 20, 1⟩], mem, 2, some (3, 6)) ∧ mem.get? 4 = some 7 ∧ mem.get? 3 = none := by
  obtain ⟨mem, range, h, h1, h2⟩ := C58_run_program (vm := fun _ _ _ => .ok run1) (layout := .small)
    (program := []) (version := .v0) (r := run1) rfl (states := [⟨10, 20, 1⟩])
    ⟨rfl, by simp, by decide, by
      intro idx stop h
      cases h
      decide⟩
  rw [h2.2 2 (some 3) rfl] at h
  exact ⟨mem, h, h1 4, h1 3⟩

example : runProgram (fun _ _ _ => .err .runner) .small [] .v0 = .err .runner :=
  C58_run_program_fails.1 _ rfl

end Examples

end Verif.Props
