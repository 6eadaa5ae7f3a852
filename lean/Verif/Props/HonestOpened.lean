import Verif.Props.TraceOpenings
import Verif.Props.CairoHonest

/-!
# C93: the proofs of honest runs pass the verifier and the check that it leaves out
-/

namespace Verif.Props
open Verif.Spec TraceTable

variable {T : Type} {env : Env FE T}

/-- **C93**, honest runs of Cairo programs: the proof is accepted, has the shape that C92 asks for, and its rows of the trace
are opened rightly. So a verifier that also made these two checks would accept every proof that the code makes of an
honest run. -/
theorem C93_cairo_run (hta : env.ta = starkRoots) {mem : CairoMemory} {m : FE → FE}
    {states : List RegistersState} (run : HonestRun mem m states) {size : Nat} {segs : MemorySegmentMap}
    {pi pi' : PublicInputs} (hpi : ExecTrace.fromRegsAndMem states mem size segs = .ok pi) (hsize : size < 2 ^ 64)
    (hzero : mem.get? 0 = none) (hpc : ∃ t ∈ states, t.pc ≤ size)
    (hsegs : segs = [] ∨ ∃ r, segs.get? .rangeCheck = some r) (hb : BuiltinValues mem segs)
    (hout : OutputAfterProgram size segs) (hcov : OutputCovered m states size segs)
    {main : List (List FE)} (hmain : ExecTrace.buildMainTrace states mem pi = .ok (main, pi'))
    {options : ProofOptions} {a b : Nat} (hlen : main.length = 2 ^ a) (hb1 : 1 ≤ b)
    (hbl : options.blowupFactor.toNat = 2 ^ b) (hsq : ¬ IsSquare (options.cosetOffset : FE)) {proof : StarkProof FE}
    (hproof : CairoAir.generateCairoProof env ⟨main.flatten, (main.headD []).length⟩ pi' options = .ok proof) :
    CairoAir.verifyCairoProof env proof pi' options = .ok true ∧
      ProofShape proof a b (if segs = [] then 52 else 61) 2 2 options.friNumberOfQueries ∧
      ∃ d c t, Domain.new env.ta (CairoAir.air (2 ^ a) pi' options) = .ok d ∧
        step1 env (CairoAir.air (2 ^ a) pi' options) proof d env.tr.init = .ok (c, t) ∧
        TraceOpened env.hashes (if segs = [] then 34 else 43) proof c.iotas := by
  refine ⟨C44_cairo_honest_proofs_verify hta run hpi hsize hzero hpc hsegs hb hout hcov hmain hb1 hbl hsq hproof,
    (C62_cairo_proof_shape run hpi hsize hzero hpc hsegs hb hout hcov hmain hlen hb1 hbl hsq hproof).2, ?_⟩
  obtain ⟨⟨a', ha, hlen'⟩, hw, hhd, -, -, -⟩ := main_shape hmain
  obtain rfl : a' = a := Nat.pow_right_injective le_rfl (hlen'.symm.trans hlen)
  have hk : 0 < ExecTrace.mainWidth pi := by have := ExecTrace.mainWidth_ge pi; omega
  have hwidth : ExecTrace.mainWidth pi = if segs = [] then 34 else 43 := by
    obtain ⟨-, -, -, -, -, -, -, -, -, hms⟩ := ExecTrace.fromRegsAndMem_regs hpi
    unfold ExecTrace.mainWidth
    rw [hms]
    rcases hsegs with rfl | ⟨r, hr⟩
    · rfl
    · rw [hr, if_neg (by rintro rfl; cases hr)]
  rw [hhd] at hproof
  rw [← hwidth]
  exact C93_as_assumed ha (air := CairoAir.air (2 ^ a') pi' options) (new := CairoAir.new) rfl hbl rfl hk hlen hw (by
      intro ch aux haux _
      simp only [CairoAir.air, Outcome.bind_eq_ok, Outcome.pure_eq, Outcome.ok.injEq] at haux
      obtain ⟨auxRows, haux, rfl⟩ := haux
      rw [tableRows_ofRows hk hw] at haux
      obtain ⟨_, _, _, _, _, A⟩ := ExecTrace.buildAuxiliaryTrace_ok haux
      exact ⟨auxRows, rfl, A.len.trans hlen, A.width⟩) hproof

/-- The proof of the run of `simple_program`. -/
example : ∃ proof d c t, CairoAir.generateCairoProof Examples.envFar
      ⟨Examples.main0.1.flatten, (Examples.main0.1.headD []).length⟩
      Examples.main0.2 ProofOptions.defaultTestOptions = .ok proof ∧
    CairoAir.verifyCairoProof Examples.envFar proof Examples.main0.2 ProofOptions.defaultTestOptions = .ok true ∧
    ProofShape proof 3 2 52 2 2 3 ∧
    step1 Examples.envFar (CairoAir.air (2 ^ 3) Examples.main0.2 ProofOptions.defaultTestOptions) proof d
      Examples.envFar.tr.init = .ok (c, t) ∧ TraceOpened Examples.envFar.hashes 34 proof c.iotas := by
  obtain ⟨proof, h, -⟩ := example_cairo_proof
  have hmain : ExecTrace.buildMainTrace Examples.states Examples.mem Examples.pi0
      = .ok (Examples.main0.1, Examples.main0.2) := by
    rw [Examples.main0_eq, Prod.mk.eta]
  obtain ⟨h1, h2, d, c, t, -, h4, h3⟩ := C93_cairo_run (a := 3) (b := 2) rfl example_run Examples.pi0_eq (by norm_num)
    (by decide +kernel) ⟨⟨1, 8, 8⟩, by decide, by decide⟩ (.inl rfl) (by intro s e h; cases h)
    (by intro s e h; cases h) (ExecTrace.covered_of_no_output rfl) hmain Examples.main0_length (by norm_num)
    (by decide) (by exact_mod_cast three_not_square) h
  exact ⟨proof, d, c, t, h, h1, h2, h4, h3⟩

end Verif.Props
