import Verif.Props.HonestTrace
import Verif.Props.Stark
import Verif.Props.Verifier

/-!
# C44 for Cairo: proofs of honest runs are accepted

The public functions `generate_cairo_proof` and `verify_cairo_proof`, on the trace and public inputs that
come from a run of the Cairo machine.
-/

namespace Verif.Props
open Verif.ExecTrace Verif.CairoAir Verif.Spec TraceTable
variable {T : Type} {env : Env FE T}

theorem tableRows_ofRows {rows : List (List FE)} {w : Nat} (hw : 0 < w) (h : ∀ r ∈ rows, r.length = w) :
    tableRows (ofRows rows w) = rows := by
  unfold tableRows
  rw [nRows_ofRows rows w hw h]
  apply List.ext_getElem
  · simp
  · intro i h1 h2
    rw [List.getElem_map, List.getElem_range]
    have := getRow_ofRows (ε := Empty) rows w h i h2
    unfold getRow subslice at this
    split at this
    · have h3 := Outcome.ok.inj this
      rw [Nat.add_sub_cancel_left] at h3
      exact h3
    · cases this

/-- What the prover and verifier need to know about the main trace of a run. -/
theorem main_shape {mem : CairoMemory} {states : List RegistersState} {pi pi' : PublicInputs}
    {main : List (List FE)} (hmain : buildMainTrace states mem pi = .ok (main, pi')) :
    (∃ a, 1 ≤ a ∧ main.length = 2 ^ a) ∧ (∀ r ∈ main, r.length = mainWidth pi) ∧
      (main.headD []).length = mainWidth pi ∧ states.length ≤ main.length ∧ states ≠ [] ∧
      ∃ lo hi, pi' = { pi with rangeCheckMin := some lo, rangeCheckMax := some hi } := by
  obtain ⟨exec, rcHoles, lo, hi, holes, last1, last2, k, M⟩ := buildMainTrace_ok hmain
  obtain ⟨-, -, -, hw⟩ := M.width
  obtain ⟨a, ha⟩ := M.rows_len
  obtain ⟨hlen, hne, -⟩ := exec_width M.exec_eq
  have hl : main.length = _ := congrArg List.length M.rows_eq
  simp only [List.length_append, List.length_replicate] at hl
  have h1 : 0 < exec.length := List.length_pos_iff.mpr hne
  have h2 := M.k_ge
  have ha1 : 1 ≤ a := by
    rcases Nat.eq_zero_or_pos a with rfl | h
    · rw [pow_zero] at ha; omega
    · exact h
  refine ⟨⟨a, ha1, ha⟩, hw, ?_, by omega, ?_, _, _, M.pi_eq⟩
  · have hpos : 0 < main.length := by omega
    cases main with
    | nil => simp at hpos
    | cons r t => exact hw r (by simp)
  · rintro rfl
    rw [List.length_nil] at hlen; omega

/-- The setting of a Cairo proof. -/
theorem cairo_setting_of {a b : Nat} (ha : 1 ≤ a) (hb : 1 ≤ b) (pi : PublicInputs) {options : ProofOptions}
    (hbl : options.blowupFactor.toNat = 2 ^ b) (hsq : ¬ IsSquare (options.cosetOffset : FE)) :
    Setting (air (2 ^ a) pi options) a b :=
  ⟨ha, hb, rfl, hbl, fun h => hsq (by
      have h' : (options.cosetOffset : FE) = 0 := h
      rw [h']; exact ⟨0, by ring⟩),
    air_fits (by calc 2 = 2 ^ 1 := rfl
                  _ ≤ 2 ^ a := Nat.pow_le_pow_right (by norm_num) ha) _ _⟩

/-- The trace of an honest run satisfies the AIR together with every auxiliary trace that is built. -/
theorem cairo_satisfiesExtended {mem : CairoMemory} {m : FE → FE} {states : List RegistersState}
    (run : HonestRun mem m states) {size : Nat} {segs : MemorySegmentMap} {pi pi' : PublicInputs}
    (hpi : fromRegsAndMem states mem size segs = .ok pi) (hsize : size < 2 ^ 64)
    (hzero : mem.get? 0 = none) (hpc : ∃ t ∈ states, t.pc ≤ size)
    (hsegs : segs = [] ∨ ∃ r, segs.get? .rangeCheck = some r) (hb : BuiltinValues mem segs)
    (hout : OutputAfterProgram size segs) (hcov : OutputCovered m states size segs)
    {main : List (List FE)} (hmain : buildMainTrace states mem pi = .ok (main, pi'))
    (options : ProofOptions) (ch : RAPChallenges FE) {aux : List (List FE)}
    (haux : buildAuxiliaryTrace pi' main ch = .ok aux) :
    SatisfiesExtended (air main.length pi' options) main (mainWidth pi) ch
      ⟨aux.flatten, numberAuxiliaryRapColumns⟩ := by
  obtain ⟨exec, rcHoles, lo, hi, holes, last1, last2, k, M⟩ := buildMainTrace_ok hmain
  have hms := (fromRegsAndMem_regs hpi).choose_spec.choose_spec.2.2.2.2.2.2.2
  have hpims : pi'.memorySegments = pi.memorySegments := by rw [M.pi_eq]
  have hw : mainWidth pi = 43 - builtinOffset (hasRcBuiltin pi') := by
    unfold mainWidth hasRcBuiltin
    rw [hpims, hms]
    rcases hsegs with rfl | ⟨r, hr⟩
    · rfl
    · rw [hr]
      have hne : segs.isEmpty = false := by
        cases segs with
        | nil => cases hr
        | cons a t => rfl
      rw [hne]; rfl
  obtain ⟨hrect, hsat⟩ := honest_satisfies run M hpi hsize hb hout hzero hpc hcov hw options haux
  obtain ⟨_, _, _, _, _, A⟩ := buildAuxiliaryTrace_ok haux
  have hfull : (List.zipWith (· ++ ·) main aux).length = main.length := by
    simp [A.len]
  rw [hfull] at hsat
  refine .inr ⟨aux, by show 0 < 18; norm_num, rfl, A.len, A.width, ?_, hsat⟩
  rw [hw]
  show _ + 18 = traceColumns _
  cases hasRcBuiltin pi' <;> decide

/-- **C44** for Cairo: for every run of the Cairo machine, of any length, without memory segments or with a
range-check segment with values below `2^128`, and whose output segment, if any, leaves no gap: every proof
that `generate_cairo_proof` returns for its trace is accepted by `verify_cairo_proof`, for all options with
a power-of-two extension of at least two and a coset offset that is not a square. -/
theorem C44_cairo_honest_proofs_verify (hta : env.ta = starkRoots) {mem : CairoMemory} {m : FE → FE}
    {states : List RegistersState} (run : HonestRun mem m states) {size : Nat} {segs : MemorySegmentMap}
    {pi pi' : PublicInputs} (hpi : fromRegsAndMem states mem size segs = .ok pi) (hsize : size < 2 ^ 64)
    (hzero : mem.get? 0 = none) (hpc : ∃ t ∈ states, t.pc ≤ size)
    (hsegs : segs = [] ∨ ∃ r, segs.get? .rangeCheck = some r) (hb : BuiltinValues mem segs)
    (hout : OutputAfterProgram size segs) (hcov : OutputCovered m states size segs)
    {main : List (List FE)} (hmain : buildMainTrace states mem pi = .ok (main, pi'))
    {options : ProofOptions} {b : Nat} (hb1 : 1 ≤ b) (hbl : options.blowupFactor.toNat = 2 ^ b)
    (hsq : ¬ IsSquare (options.cosetOffset : FE)) {proof : StarkProof FE}
    (hproof : generateCairoProof env ⟨main.flatten, (main.headD []).length⟩ pi' options = .ok proof) :
    verifyCairoProof env proof pi' options = .ok true := by
  obtain ⟨⟨a, ha, hlen⟩, hw, hhd, -, -, -⟩ := main_shape hmain
  have hk : 0 < mainWidth pi := by have := mainWidth_ge pi; omega
  rw [hhd] at hproof
  have S := cairo_setting_of ha hb1 pi' hbl hsq
  have hnew : CairoAir.new (2 ^ a) pi' options = .ok (air (2 ^ a) pi' options) := rfl
  have hsmall : a + b < 192 := by
    have hp := hproof
    unfold generateCairoProof prove at hp
    rw [show (⟨main.flatten, mainWidth pi⟩ : TraceTable FE) = ofRows main (mainWidth pi) from rfl,
      nRows_ofRows main _ hk hw, hlen, hnew] at hp
    simp only [Outcome.bind_eq_ok, Outcome.bind_ok] at hp
    obtain ⟨d, hd, -⟩ := hp
    obtain ⟨g, w, D⟩ := domain_new S.rows S.length S.blowup hd
    have := D.small
    omega
  refine C44_honest_proofs_verify S hsq (by rw [hta]; exact hsmall) hnew rfl hk hlen hw
    (fun ch => ⟨_, air_polynomial _ _ _ ch⟩) ?_ hproof
  intro _ _ aux bcs haux _
  simp only [air, Outcome.bind_eq_ok, Outcome.pure_eq, Outcome.ok.injEq] at haux
  obtain ⟨auxRows, haux, rfl⟩ := haux
  rw [tableRows_ofRows hk hw] at haux
  have := cairo_satisfiesExtended run hpi hsize hzero hpc hsegs hb hout hcov hmain options _ haux
  rwa [hlen] at this

/-- **C44** for Cairo: `generate_cairo_proof` returns a proof for every such run, if no denominator is zero
for the challenges drawn after the commitment to the trace, the out-of-domain sampling ends and a nonce
exists. -/
theorem C44_cairo_prover_succeeds (hta : env.ta = starkRoots) {mem : CairoMemory} {m : FE → FE}
    {states : List RegistersState} (run : HonestRun mem m states) {size : Nat} {segs : MemorySegmentMap}
    {pi pi' : PublicInputs} (hpi : fromRegsAndMem states mem size segs = .ok pi) (hsize : size < 2 ^ 64)
    (hzero : mem.get? 0 = none) (hpc : ∃ t ∈ states, t.pc ≤ size)
    (hsegs : segs = [] ∨ ∃ r, segs.get? .rangeCheck = some r) (hb : BuiltinValues mem segs)
    (hout : OutputAfterProgram size segs) (hcov : OutputCovered m states size segs)
    {main : List (List FE)} (hmain : buildMainTrace states mem pi = .ok (main, pi'))
    {options : ProofOptions} {a b : Nat} (hlen : main.length = 2 ^ a) (hab : a + b < 64) (hb1 : 1 ≤ b)
    (hbl : options.blowupFactor.toNat = 2 ^ b) (hsq : ¬ IsSquare (options.cosetOffset : FE))
    (hmem : ∀ root, CommitmentTo env (air (2 ^ a) pi' options) ⟨main.flatten, (main.headD []).length⟩ root →
      ∀ e ∈ accesses main ++ pi.publicMemory, (challengesAfter env (air (2 ^ a) pi' options) root).zMemory
        ≠ e.1 + (challengesAfter env (air (2 ^ a) pi' options) root).alphaMemory * e.2)
    (hrc : ∀ root, CommitmentTo env (air (2 ^ a) pi' options) ⟨main.flatten, (main.headD []).length⟩ root →
      ∀ x ∈ getCols main [OFF_DST, OFF_OP0, OFF_OP1],
        (challengesAfter env (air (2 ^ a) pi' options) root).zRangeCheck ≠ x)
    (hz : SamplingEnds env (air (2 ^ a) pi' options))
    (hgrind : ∀ challenge, Grinding.generateNonce env.keccak challenge
      options.grindingFactor.toNat ≠ none) :
    ∃ proof, generateCairoProof env ⟨main.flatten, (main.headD []).length⟩ pi' options = .ok proof := by
  obtain ⟨⟨a', ha, hlen'⟩, hw, hhd, -, hne, lo, hi, hpi'⟩ := main_shape hmain
  obtain rfl : a' = a := Nat.pow_right_injective le_rfl (hlen'.symm.trans hlen)
  have hk : 0 < mainWidth pi := by have := mainWidth_ge pi; omega
  rw [hhd] at hmem hrc ⊢
  have S := cairo_setting_of ha hb1 pi' hbl hsq
  have hnew : CairoAir.new (2 ^ a') pi' options = .ok (air (2 ^ a') pi' options) := rfl
  have hcoset : (options.cosetOffset : FE) ^ 2 ^ (a' + b) ≠ 1 := by
    intro h1
    obtain ⟨w, hroot⟩ := Option.isSome_iff_exists.mp (starkRoots.defined (a' + b) (by omega)
      (by show _ ≤ 192; omega))
    have hprim := starkRoots.primitive _ w (by omega) hroot
    obtain ⟨i, hi, h2⟩ := hprim.eq_pow_of_pow_eq_one h1
    refine square_notMem' (by omega) hroot hsq (by show _ < 192; omega) 1 (2 ^ (a' + b) - i) ?_
    rw [← h2, ← pow_add, Nat.sub_add_cancel hi.le, hprim.pow_eq_one, one_pow]
  refine C44_prover_succeeds S hab (by rw [hta]; show _ ≤ 192; omega) hnew hcoset hk hlen hw
    (fun ch => ⟨_, air_polynomial _ _ _ ch⟩) ?_ hz hgrind
  intro root hroot
  have hpipm : pi'.publicMemory = pi.publicMemory := by rw [hpi']
  have hpims : pi'.memorySegments = pi.memorySegments := by rw [hpi']
  obtain ⟨exec, rcHoles, lo', hi', holes, last1, last2, k, M⟩ := buildMainTrace_ok hmain
  obtain ⟨-, -, -, -, -, -, -, -, hns, hms⟩ := fromRegsAndMem_regs hpi
  obtain ⟨-, -, hset, h16, -⟩ := main_rows run (by rw [hms]; exact hb) M
  have hl : main.length = _ := congrArg List.length M.rows_eq
  rw [List.length_append, List.length_replicate] at hl
  have hkge := M.k_ge
  obtain ⟨aux, haux⟩ := aux_exists hpi hsize hout hpipm hpims (rows := main) (by omega)
    (fun x hx => lt_of_le_of_lt ((hset x).1 hx).2 h16) _ (hmem root hroot) (hrc root hroot)
  obtain ⟨cs, hcs⟩ := boundary_exists pi' (by
      rw [hpi']; show pi.numSteps ≠ 0; rw [hns]; exact fun h => hne (List.length_eq_zero_iff.1 h))
    (by rw [hpi']; simp) (by rw [hpi']; simp) (n := 2 ^ a') (by positivity) _
    (fun e he => hmem root hroot e (List.mem_append_right _ (hpipm ▸ he)))
  refine ⟨⟨aux.flatten, numberAuxiliaryRapColumns⟩, cs, ?_, hcs, ?_⟩
  · show (do
      let aux ← buildAuxiliaryTrace pi' (tableRows (ofRows main (mainWidth pi))) _
      pure (⟨aux.flatten, numberAuxiliaryRapColumns⟩ : TraceTable FE)) = _
    rw [tableRows_ofRows hk hw, haux]
    rfl
  · have := cairo_satisfiesExtended run hpi hsize hzero hpc hsegs hb hout hcov hmain options _ haux
    rwa [hlen] at this

/-! The hypotheses are met by the run of `simple_program`. -/

theorem far_memory (t : UInt8) : ∀ e ∈ accesses Examples.main0.1 ++ Examples.pi0.publicMemory,
    (buildRapChallenges Examples.envFar (air (2 ^ 3) Examples.main0.2 ProofOptions.defaultTestOptions)
        t).1.zMemory
      ≠ e.1 + (buildRapChallenges Examples.envFar
        (air (2 ^ 3) Examples.main0.2 ProofOptions.defaultTestOptions) t).1.alphaMemory * e.2 := by
  have h : ∀ n : Fin 256, (accesses Examples.main0.1 ++ Examples.pi0.publicMemory).all (fun e =>
      decide (((UInt8.ofNat n.val + 1).toNat : FE) + (2 ^ 200 : Nat)
        ≠ e.1 + ((((UInt8.ofNat n.val).toNat : FE) + (2 ^ 200 : Nat)) * e.2))) = true := by
    decide +kernel
  intro e he
  have := List.all_eq_true.1 (h ⟨t.toNat, t.toNat_lt⟩) e he
  simp only [UInt8.ofNat_toNat, decide_eq_true_eq] at this
  exact this

theorem far_offsets (t : UInt8) : ∀ x ∈ getCols Examples.main0.1 [OFF_DST, OFF_OP0, OFF_OP1],
    (buildRapChallenges Examples.envFar (air (2 ^ 3) Examples.main0.2 ProofOptions.defaultTestOptions)
      t).1.zRangeCheck ≠ x := by
  have h : ∀ n : Fin 256, (getCols Examples.main0.1 [OFF_DST, OFF_OP0, OFF_OP1]).all (fun x =>
      decide (((UInt8.ofNat n.val + 1 + 1).toNat : FE) + (2 ^ 200 : Nat) ≠ x)) = true := by
    decide +kernel
  intro x hx
  have := List.all_eq_true.1 (h ⟨t.toNat, t.toNat_lt⟩) x hx
  simp only [UInt8.ofNat_toNat, decide_eq_true_eq] at this
  exact this

/-- A proof of the run of `simple_program` exists and is accepted. -/
theorem example_cairo_proof : ∃ proof,
    generateCairoProof Examples.envFar ⟨Examples.main0.1.flatten, (Examples.main0.1.headD []).length⟩
      Examples.main0.2 ProofOptions.defaultTestOptions = .ok proof ∧
    verifyCairoProof Examples.envFar proof Examples.main0.2 ProofOptions.defaultTestOptions = .ok true := by
  have hsq : ¬ IsSquare (ProofOptions.defaultTestOptions.cosetOffset : FE) := by
    exact_mod_cast three_not_square
  have hpc : ∃ t ∈ Examples.states, t.pc ≤ 5 := ⟨⟨1, 8, 8⟩, by decide, by decide⟩
  have hb : BuiltinValues Examples.mem [] := by intro s e h; cases h
  have ho : OutputAfterProgram 5 [] := by intro s e h; cases h
  have hc : OutputCovered Examples.m Examples.states 5 [] := covered_of_no_output rfl
  have hmain : buildMainTrace Examples.states Examples.mem Examples.pi0
      = .ok (Examples.main0.1, Examples.main0.2) := by
    rw [Examples.main0_eq, Prod.mk.eta]
  obtain ⟨proof, hp⟩ := C44_cairo_prover_succeeds (env := Examples.envFar) (a := 3) (b := 2)
    (main := Examples.main0.1) (pi' := Examples.main0.2) (options := ProofOptions.defaultTestOptions) rfl example_run Examples.pi0_eq
    (by norm_num) (by decide +kernel) hpc (.inl rfl) hb ho hc hmain Examples.main0_length
    (by norm_num) (by norm_num) (by decide) hsq (fun _ _ => far_memory _) (fun _ _ => far_offsets _)
    (samplingEnds_of (cairo_setting_of (b := 2) (by norm_num) (by norm_num) _ (by decide) hsq)
      fun lde trace t h1 h2 => Examples.sampleZOodFar lde trace t (by rw [h1, h2]; norm_num))
    Examples.generateNonce_stark
  exact ⟨proof, hp, C44_cairo_honest_proofs_verify (env := Examples.envFar) (main := Examples.main0.1)
    (pi' := Examples.main0.2) rfl example_run Examples.pi0_eq (by norm_num)
    (by decide +kernel) hpc (.inl rfl) hb ho hc hmain (b := 2) (by norm_num) (by decide) hsq hp⟩

end Verif.Props
