import Verif.Props.HonestGap
import Verif.Props.RandomHash

/-!
# Honest runs whose proofs are rejected: C24
-/

namespace Verif.Props
open Verif.ExecTrace Verif.CairoAir Verif.Spec TraceTable

variable {T : Type} {env : Env FE T}

/-- **C24**, the other side: an honest run with a gap in its addresses has no accepted proof. For random hash functions,
the probability that the prover makes a proof of such a run and that the verifier accepts it is at most the bound of
`C79_random_hash`, whereas without a gap the proof is accepted except with a small probability (`C81_random_hash`). -/
theorem C24_gap_rejected_random_hash (hta : env.ta = starkRoots)
    (hof : ∀ d, randomnessToField 252 d = .ok (env.ofDigest d)) {mem : CairoMemory} {m : FE → FE}
    {states : List RegistersState} (run : HonestRun mem m states) {size : Nat} {segs : MemorySegmentMap}
    {pi pi' : PublicInputs} (hpi : fromRegsAndMem states mem size segs = .ok pi) (hsize : size < 2 ^ 64)
    (hzero : mem.get? 0 = none) (hpc : ∃ t ∈ states, t.pc ≤ size)
    (hsegs : segs = [] ∨ ∃ r, segs.get? .rangeCheck = some r) (hb : BuiltinValues mem segs)
    (hout : OutputAfterProgram size segs) (hgap : ¬ NoGap m states size segs)
    {main : List (List FE)} (hmain : buildMainTrace states mem pi = .ok (main, pi'))
    {options : ProofOptions} {a b : Nat} (hlen : main.length = 2 ^ a) (hab : a + b < 64) (hb1 : 1 ≤ b)
    (hbl : options.blowupFactor.toNat = 2 ^ b) (hsq : ¬ IsSquare (options.cosetOffset : FE))
    (hg : options.grindingFactor.toNat ≤ 64) {s columns N : Nat} (r : Nat) {n : Nat}
    (hs : s = 3 + 2 * 8 + 2 * (if segs = [] then 49 else 50)) (hcolumns : columns = if segs = [] then 52 else 61)
    (hN : N = s + r + 2 + 2 * columns + a + 1 + options.friNumberOfQueries) (hn : n < 2 ^ 64) :
    ∃ L₀, ∀ L ≥ L₀,
      probability ((Message L → Commitment) × (WorkMessage → Commitment)) (fun ω =>
        ∃ proof,
          generateCairoProof (hashing env ω.1 ω.2) ⟨main.flatten, (main.headD []).length⟩ pi' options = .ok proof ∧
          verifyCairoProof (hashing env ω.1 ω.2) proof pi' options = .ok true)
        ≤ (1 + 2 ^ (a + b) + 2 ^ (a + 1)) / 2 ^ 251 + (((2 ^ (a + b) + 2 ^ a) / 2 ^ 251) ^ r
          + (1 - 1 / 2 ^ options.grindingFactor.toNat) ^ n + N * (N + 1) / 2 / 2 ^ 256) := by
  obtain ⟨ha, hw, hhd, hseg⟩ := honest_shape hpi hsegs hmain hlen
  obtain ⟨main₁, pi₁, hmain₁, -, hexact⟩ := C24_exact run hpi hsize hzero hpc hsegs hb hout
  obtain ⟨rfl, rfl⟩ := Prod.mk.inj (Outcome.ok.inj (hmain₁.symm.trans hmain))
  obtain ⟨-, -, -, -, -, -, -, -, hns, -⟩ := fromRegsAndMem_regs hpi
  obtain ⟨exec, rcHoles, lo, hi, holes, last1, last2, k, M⟩ := buildMainTrace_ok hmain
  have hml : main₁.length = _ := congrArg List.length M.rows_eq
  rw [List.length_append, List.length_replicate] at hml
  have hk := M.k_ge
  have hsteps : pi₁.numSteps ≤ 2 ^ a := by
    have : pi₁.numSteps = states.length := by rw [M.pi_eq]; exact hns
    rw [this, ← hlen, hml]
    have := (exec_width M.exec_eq).1
    simp only [List.length_append]; omega
  have := C79_random_hash hta hof ha hb1 hab hbl hsq hg hlen hw hsteps (fun ch aux haux hA => ?_) r
    (by rw [hseg]; exact hs) (by rw [hseg]; exact hcolumns) hN hn
  · rw [← hhd] at this
    exact this
  · refine hgap ((hexact options ch aux haux).1 ?_).1
    have hfull : (List.zipWith (· ++ ·) main₁ aux).length = main₁.length := by
      obtain ⟨_, _, _, _, _, A⟩ := buildAuxiliaryTrace_ok haux
      simp [A.len]
    have hsat := hA.sat
    rw [hfull] at hsat
    rw [C35_validate_table (CairoAir.air main₁.length pi₁ options) (List.zipWith (· ++ ·) main₁ aux)
      (traceColumns (hasRcBuiltin pi₁)) hA.rect ch (by
        rw [hfull]; exact CairoAir.declared _ _ _ _ (by rw [hlen]; positivity) (by rw [hlen]; exact hsteps))]
    exact hsat

/-- The hypotheses are met by the run of `C24_fails_output_gap`: its proof with the default options is accepted with
probability at most `1 / 2^98`. -/
example : ∃ pi main pi', fromRegsAndMem gapStates gapMem 5 gapSegs = .ok pi ∧
    buildMainTrace gapStates gapMem pi = .ok (main, pi') ∧
    ∃ L₀, ∀ L ≥ L₀, probability ((Message L → Commitment) × (WorkMessage → Commitment)) (fun ω =>
      ∃ proof, generateCairoProof (hashing envDrawn ω.1 ω.2) ⟨main.flatten, (main.headD []).length⟩ pi'
          ProofOptions.defaultTestOptions = .ok proof ∧
        verifyCairoProof (hashing envDrawn ω.1 ω.2) proof pi' ProofOptions.defaultTestOptions = .ok true)
      ≤ 1 / 2 ^ 98 := by
  have hpi := Outcome.eq_ok_getD (x := fromRegsAndMem gapStates gapMem 5 gapSegs) Examples.pi0 (by decide +kernel)
  generalize hp : Outcome.getD (fromRegsAndMem gapStates gapMem 5 gapSegs) Examples.pi0 = pi at hpi
  have hmain := Outcome.eq_ok_getD (x := buildMainTrace gapStates gapMem pi) ([], pi) (by subst hp; decide +kernel)
  have hlen : ((buildMainTrace gapStates gapMem pi).getD ([], pi)).1.length = 2 ^ 3 := by subst hp; decide +kernel
  generalize (buildMainTrace gapStates gapMem pi).getD ([], pi) = x at hmain hlen
  obtain ⟨main, pi'⟩ := x
  obtain ⟨L₀, h⟩ := C24_gap_rejected_random_hash (env := envDrawn) (a := 3) (b := 2) (main := main)
    (pi' := pi') (options := ProofOptions.defaultTestOptions) rfl envDrawn_challenges gap_run
    hpi (by norm_num) (by decide +kernel) ⟨⟨1, 20, 20⟩, by decide, by decide⟩ (.inr ⟨_, rfl⟩)
    (by intro s e h; cases h; intro n h1 h2; omega) (by intro s e h; cases h; decide) gap_here hmain
    hlen (by norm_num) (by norm_num) (by decide) three_nonsquare (by decide)
    (s := 119) (columns := 61) (N := 251) 1 (n := 100) rfl rfl rfl (by norm_num)
  refine ⟨pi, main, pi', hpi, hmain, L₀, fun L hL => le_trans (h L hL) ?_⟩
  rw [show ProofOptions.defaultTestOptions.grindingFactor.toNat = 1 from rfl]
  norm_num

end Verif.Props
