import Verif.Spec.Security
import Verif.Props.Shape

/-!
# C78: verifying with other options than those of the prover
-/

namespace Verif.Props
open Polynomial Spec TraceTable
variable {F T Ch : Type} [Field F] [DecidableEq F] {env : Env F T}

omit [DecidableEq F] in
/-- Fewer queries are a prefix of the queries. -/
theorem sampleIndices_take {m n k : Nat} {t t' : T} {l : List Nat}
    (h : Fri.sampleIndices env m n t = .ok (l, t')) (hk : k ≤ n) :
    ∃ t'', Fri.sampleIndices env m k t = .ok (l.take k, t'') := by
  induction n generalizing k t l with
  | zero =>
    obtain rfl : k = 0 := by omega
    exact ⟨t, by simp [Fri.sampleIndices]⟩
  | succ n ih =>
    cases k with
    | zero => exact ⟨t, by simp [Fri.sampleIndices]⟩
    | succ k =>
      unfold Fri.sampleIndices at h ⊢
      split at h
      · cases h
      next hm =>
      rw [if_neg hm]
      simp only [Outcome.bind_eq_ok, Outcome.pure_eq, Outcome.ok.injEq, Prod.mk.injEq] at h
      obtain ⟨⟨l', t1⟩, h1, rfl, rfl⟩ := h
      obtain ⟨t'', h2⟩ := ih h1 (k := k) (by omega)
      exact ⟨t'', by simp only [h2, Outcome.bind_ok, Outcome.pure_eq, List.take_succ_cons]⟩

/-- A conjunction computed by a fold holds for a prefix. -/
theorem foldlM_take_true {α : Type} {f : Bool → α → Outcome Empty Bool} {l : List α}
    (hf : ∀ b x, f b x = .ok true → b = true) (h : l.foldlM f true = .ok true) (k : Nat) :
    (l.take k).foldlM f true = .ok true := by
  have key : ∀ (l : List α) b, l.foldlM f b = .ok true → b = true := by
    intro l
    induction l with
    | nil =>
      intro b h
      exact Outcome.ok.inj h
    | cons x l ih =>
      intro b h
      rw [List.foldlM_cons, Outcome.bind_eq_ok] at h
      obtain ⟨b', h1, h2⟩ := h
      obtain rfl := ih _ h2
      exact hf _ _ h1
  rw [← List.take_append_drop k l, List.foldlM_append, Outcome.bind_eq_ok] at h
  obtain ⟨b, h1, h2⟩ := h
  obtain rfl := key _ _ h2
  exact h1

omit [Field F] [DecidableEq F] in
theorem mapOutcome_take {α β : Type} {f : α → Outcome Empty β} {l : List α} {r : List β}
    (h : mapOutcome f l = .ok r) (k : Nat) : mapOutcome f (l.take k) = .ok (r.take k) := by
  induction l generalizing r k with
  | nil =>
    obtain rfl : [] = r := Outcome.ok.inj h
    simp [mapOutcome]
  | cons x l ih =>
    cases k with
    | zero => simp [mapOutcome]
    | succ k =>
      simp only [mapOutcome, Outcome.bind_eq_ok, Outcome.pure_eq, Outcome.ok.injEq] at h
      obtain ⟨y, h1, ys, h2, rfl⟩ := h
      simp only [List.take_succ_cons, mapOutcome, h1, ih h2 k, Outcome.bind_ok, Outcome.pure_eq]

theorem batchInverse_take {l r : List F} (h : batchInverse l = (.ok r : Outcome Empty _)) (k : Nat) :
    batchInverse (l.take k) = (.ok (r.take k) : Outcome Empty _) := by
  obtain ⟨h1, rfl⟩ := batchInverse_eq_ok.mp h
  rw [← List.map_take]
  exact batchInverse_eq_ok.mpr ⟨fun x hx => h1 x (List.mem_of_mem_take hx), rfl⟩

omit [DecidableEq F] in
/-- The domain does not depend on the queries and the grinding factor. -/
theorem domain_withOptions {ta : TwoAdic F} {air : Air F Ch} {options : ProofOptions}
    (h : SameDomain air.context.proofOptions options) :
    Domain.new ta (withOptions air options) = Domain.new ta air := by
  unfold Domain.new withOptions
  simp only [h.blowup, h.offset]

/-- With fewer queries the replay ends with a prefix of the queries. -/
theorem step1_withOptions {air : Air F Ch} {options : ProofOptions} {proof : StarkProof F} {d : Domain F}
    {t t' : T} {c : Challenges F Ch}
    (hq : options.friNumberOfQueries ≤ air.context.proofOptions.friNumberOfQueries)
    (h : step1 env air proof d t = .ok (c, t')) :
    ∃ t'', step1 env (withOptions air options) proof d t
      = .ok ({ c with iotas := c.iotas.take options.friNumberOfQueries }, t'') := by
  unfold step1 at h ⊢
  simp only [Outcome.bind_eq_ok, Outcome.pure_eq, Outcome.ok.injEq, Prod.mk.injEq] at h
  obtain ⟨root0, h0, bcs, hb, z, hz, tf, hf, ⟨iotas, t1⟩, hi, rfl, rfl⟩ := h
  obtain ⟨t'', hi'⟩ := sampleIndices_take hi hq
  refine ⟨t'', ?_⟩
  rw [h0, Outcome.bind_ok]
  dsimp only
  erw [hb]
  rw [Outcome.bind_ok]
  erw [hz]
  rw [Outcome.bind_ok]
  erw [hf]
  rw [Outcome.bind_ok]
  erw [hi']
  rfl

/-- A prefix of the queries. -/
theorem step3_take {proof : StarkProof F} {d : Domain F} {c : Challenges F Ch} (k : Nat)
    (h : step3 env proof d c = .ok true) :
    step3 env proof d { c with iotas := c.iotas.take k } = .ok true := by
  obtain ⟨h1, h2, h3⟩ := step3_true.mp h
  refine step3_true.mpr ⟨h1, fun i hi => h2 i (List.mem_of_mem_take hi), fun i q iota x e1 e2 e3 => ?_⟩
  dsimp only at e2
  rw [List.getElem?_take] at e2
  split at e2
  · exact h3 i q iota x e1 e2 e3
  · cases e2

theorem verifyDeepAt_acc {air : Air F Ch} {proof : StarkProof F} {d : Domain F} {c : Challenges F Ch}
    {root : F} {b : Bool} {x : Nat × ((Nat × DeepPolynomialOpenings F) × F)}
    (h : verifyDeepAt env air proof d c root b x = .ok true) : b = true := by
  unfold verifyDeepAt at h
  simp only [Outcome.bind_eq_ok, Outcome.pure_eq, Outcome.ok.injEq] at h
  obtain ⟨_, _, _, _, _, _, _, _, _, _, _, _, _, _, _, _, h⟩ := h
  cases b with
  | true => rfl
  | false => simp at h

theorem step4_take {air : Air F Ch} {options : ProofOptions} {proof : StarkProof F} {d : Domain F}
    {c : Challenges F Ch} (k : Nat) (h : step4 env air proof d c = .ok true) :
    step4 env (withOptions air options) proof d { c with iotas := c.iotas.take k } = .ok true := by
  unfold step4 at h ⊢
  simp only [Outcome.bind_eq_ok] at h
  obtain ⟨root, h0, points, h1, inv, h2, h3⟩ := h
  rw [h0, Outcome.bind_ok]
  dsimp only
  rw [mapOutcome_take h1 k, Outcome.bind_ok, batchInverse_take h2 k, Outcome.bind_ok]
  have hz : (((c.iotas.take k).zip proof.deepPolyOpenings).zip (inv.take k))
      = ((c.iotas.zip proof.deepPolyOpenings).zip inv).take k := by
    apply List.ext_getElem?
    intro i
    by_cases hk : i < k <;> simp [List.zip_eq_zipWith, List.getElem?_zipWith, hk]
  rw [hz]
  have hz' : ∀ l : List ((Nat × DeepPolynomialOpenings F) × F),
      (List.range (l.take k).length).zip (l.take k) = ((List.range l.length).zip l).take k := by
    intro l
    apply List.ext_getElem?
    intro i
    by_cases hk : i < k
    · by_cases hl : i < l.length
      · simp only [List.getElem?_take, List.zip_eq_zipWith, List.getElem?_zipWith, if_pos hk]
        rw [List.getElem?_range hl, List.getElem?_range (by rw [List.length_take]; omega)]
      · simp [List.zip_eq_zipWith, List.getElem?_zipWith, hk,
          List.getElem?_eq_none (l := l) (i := i) (by omega)]
    · simp [List.zip_eq_zipWith, hk]
  rw [hz']
  exact foldlM_take_true (fun b x => verifyDeepAt_acc) h3 k

/-! ## C78 -/

/-- **C78**: a proof that is accepted under some options has a number of leading zero bits, at least the
grinding factor, such that under all options with the same domains and no more queries the verifier
answers, and accepts exactly when the grinding factor is not larger than this number. -/
theorem C78_fewer_queries {PI : Type} {new : AirNew F Ch PI} {pi : PI} {options : ProofOptions}
    {air : Air F Ch} {proof : StarkProof F}
    (hnew : ∀ options', new proof.traceLength pi options' = .ok (withOptions air options'))
    (h : verify env new proof pi options = .ok true) :
    ∃ zeros, options.grindingFactor.toNat ≤ zeros ∧
      ∀ options', SameDomain options options' →
        options'.friNumberOfQueries ≤ options.friNumberOfQueries →
        verify env new proof pi options' = .ok (decide (options'.grindingFactor.toNat ≤ zeros)) := by
  obtain ⟨hq, air', d, c, t, h1, h2, h3, h4, h5, h6, h7⟩ := verify_true h
  obtain rfl : withOptions air options = air' := Outcome.ok.inj ((hnew options).symm.trans h1)
  refine ⟨c.leadingZerosCount, h4, fun o hs hle => ?_⟩
  obtain ⟨t'', h3'⟩ := step1_withOptions (air := withOptions air options) (options := o) hle h3
  have h2' := (domain_withOptions (ta := env.ta) (air := withOptions air options) hs).trans h2
  have h5' : step2 (withOptions air o) proof d
      { c with iotas := c.iotas.take o.friNumberOfQueries } = .ok true := h5
  have h7' := step4_take (options := o) o.friNumberOfQueries h7
  change Domain.new env.ta (withOptions air o) = _ at h2'
  change step1 env (withOptions air o) proof d env.tr.init = _ at h3'
  change step4 env (withOptions air o) proof d _ = _ at h7'
  unfold verify
  rw [if_neg (by omega), hnew o, Outcome.bind_ok, h2', Outcome.bind_ok, h3', Outcome.bind_ok]
  dsimp only
  by_cases hg : o.grindingFactor.toNat ≤ c.leadingZerosCount
  · rw [if_neg (by show ¬ c.leadingZerosCount < o.grindingFactor.toNat; omega), decide_eq_true hg, h5',
      Outcome.bind_ok, if_neg (by simp), step3_take _ h6, Outcome.bind_ok, if_neg (by simp), h7']
    rfl
  · rw [if_pos (by show c.leadingZerosCount < o.grindingFactor.toNat; omega), decide_eq_false hg]
    rfl

/-- **C78**: the proof of a satisfying trace, verified under other options with the same domains: the
verifier answers, and accepts exactly when no more queries are asked for than the prover made and the
grinding factor is at most the number of leading zero bits that the nonce gives. -/
theorem C78_honest_proof {PI : Type} {new : AirNew F Ch PI} {pi : PI} {options : ProofOptions}
    {air : Air F Ch} {a b : Nat} (S : Setting (withOptions air options) a b)
    (hsq : ¬ IsSquare (options.cosetOffset : F)) (hsmall : a + b < env.ta.adicity)
    (hnew : ∀ options', new (2 ^ a) pi options' = .ok (withOptions air options'))
    {rows : List (List F)} {k : Nat} (hk : 0 < k)
    (hrows : rows.length = 2 ^ a) (hr : ∀ r ∈ rows, r.length = k)
    (hc : ∀ ch, ∃ cs, PolynomialConstraints (withOptions air options) ch cs)
    (hsat : ∀ root, CommitmentTo env (withOptions air options) (ofRows rows k) root → ∀ aux bcs,
      air.buildAuxiliaryTrace (ofRows rows k) (challengesAfter env air root) = .ok aux →
      air.boundaryConstraints (challengesAfter env air root) = .ok bcs →
      SatisfiesExtended (withOptions air options) rows k (challengesAfter env air root) aux)
    {proof : StarkProof F} (hproof : prove env new (ofRows rows k) pi options = .ok proof) :
    ∃ zeros, options.grindingFactor.toNat ≤ zeros ∧
      ∀ options', SameDomain options options' →
        verify env new proof pi options' = .ok (decide
          (options'.friNumberOfQueries ≤ options.friNumberOfQueries ∧ options'.grindingFactor.toNat ≤ zeros)) := by
  have hv := C44_honest_proofs_verify S hsq hsmall (hnew options) rfl hk hrows hr hc hsat hproof
  obtain ⟨root, aux, -, -, hshape⟩ := C62_proof_shape S (hnew options) hk hrows hr hc hsat hproof
  have hlen : proof.traceLength = 2 ^ a := hshape.traceLength
  obtain ⟨zeros, hz, hall⟩ := C78_fewer_queries (env := env) (air := air) (by rw [hlen]; exact hnew) hv
  refine ⟨zeros, hz, fun o hs => ?_⟩
  by_cases hq : o.friNumberOfQueries ≤ options.friNumberOfQueries
  · rw [hall o hs hq]
    simp [hq]
  · unfold verify
    have hcount : proof.queryList.length = options.friNumberOfQueries := hshape.queryCount
    rw [if_pos (by omega)]
    simp [hq]

/-- **C78** for Cairo: the proof of an honest run, verified under other options with the same domains. -/
theorem C78_cairo {env : Env FE T} (hta : env.ta = starkRoots) {mem : CairoMemory} {m : FE → FE}
    {states : List RegistersState} (run : HonestRun mem m states) {size : Nat} {segs : MemorySegmentMap}
    {pi pi' : PublicInputs} (hpi : ExecTrace.fromRegsAndMem states mem size segs = .ok pi) (hsize : size < 2 ^ 64)
    (hzero : mem.get? 0 = none) (hpc : ∃ t ∈ states, t.pc ≤ size)
    (hsegs : segs = [] ∨ ∃ r, segs.get? .rangeCheck = some r) (hb : BuiltinValues mem segs)
    (hout : OutputAfterProgram size segs) (hcov : OutputCovered m states size segs)
    {main : List (List FE)} (hmain : ExecTrace.buildMainTrace states mem pi = .ok (main, pi'))
    {options : ProofOptions} {b : Nat} (hb1 : 1 ≤ b) (hbl : options.blowupFactor.toNat = 2 ^ b)
    (hsq : ¬ IsSquare (options.cosetOffset : FE)) {proof : StarkProof FE}
    (hproof : CairoAir.generateCairoProof env ⟨main.flatten, (main.headD []).length⟩ pi' options = .ok proof) :
    ∃ zeros, options.grindingFactor.toNat ≤ zeros ∧
      ∀ options', SameDomain options options' →
        CairoAir.verifyCairoProof env proof pi' options' = .ok (decide
          (options'.friNumberOfQueries ≤ options.friNumberOfQueries ∧ options'.grindingFactor.toNat ≤ zeros)) := by
  have hv := C44_cairo_honest_proofs_verify hta run hpi hsize hzero hpc hsegs hb hout hcov hmain hb1 hbl hsq hproof
  obtain ⟨⟨a, ha, hlen⟩, hw, hhd, -, -, -⟩ := main_shape hmain
  have hk : 0 < ExecTrace.mainWidth pi := by have := ExecTrace.mainWidth_ge pi; omega
  rw [hhd] at hproof
  have S := cairo_setting_of ha hb1 pi' hbl hsq
  obtain ⟨root, aux, -, -, hshape⟩ := C62_proof_shape S (new := CairoAir.new) rfl hk hlen hw
    (fun ch => ⟨_, CairoAir.air_polynomial _ _ _ ch⟩) (env := env) (by
      intro _ _ aux bcs haux _
      simp only [CairoAir.air, Outcome.bind_eq_ok, Outcome.pure_eq, Outcome.ok.injEq] at haux
      obtain ⟨auxRows, haux, rfl⟩ := haux
      rw [tableRows_ofRows hk hw] at haux
      have := cairo_satisfiesExtended run hpi hsize hzero hpc hsegs hb hout hcov hmain options _ haux
      rwa [hlen] at this) hproof
  obtain ⟨zeros, hz, hall⟩ := C78_fewer_queries (env := env)
    (air := CairoAir.air proof.traceLength pi' options) (fun _ => rfl) hv
  refine ⟨zeros, hz, fun o hs => ?_⟩
  by_cases hq : o.friNumberOfQueries ≤ options.friNumberOfQueries
  · refine (hall o hs hq).trans ?_
    simp [hq]
  · unfold CairoAir.verifyCairoProof verify
    have hcount : proof.queryList.length = options.friNumberOfQueries := hshape.queryCount
    rw [if_pos (by omega)]
    simp [hq]

/-- **C78** for the presets: a proof of an honest run made with a preset is accepted with a preset exactly
when that preset is not stronger. -/
theorem C78_presets {env : Env FE T} (hta : env.ta = starkRoots) {mem : CairoMemory} {m : FE → FE}
    {states : List RegistersState} (run : HonestRun mem m states) {size : Nat} {segs : MemorySegmentMap}
    {pi pi' : PublicInputs} (hpi : ExecTrace.fromRegsAndMem states mem size segs = .ok pi) (hsize : size < 2 ^ 64)
    (hzero : mem.get? 0 = none) (hpc : ∃ t ∈ states, t.pc ≤ size)
    (hsegs : segs = [] ∨ ∃ r, segs.get? .rangeCheck = some r) (hb : BuiltinValues mem segs)
    (hout : OutputAfterProgram size segs) (hcov : OutputCovered m states size segs)
    {main : List (List FE)} (hmain : ExecTrace.buildMainTrace states mem pi = .ok (main, pi'))
    (level level' : SecurityLevel) {proof : StarkProof FE}
    (hproof : CairoAir.generateCairoProof env ⟨main.flatten, (main.headD []).length⟩ pi'
      (ProofOptions.newSecure level 3) = .ok proof) :
    CairoAir.verifyCairoProof env proof pi' (ProofOptions.newSecure level' 3)
      = .ok (decide (rank level' ≤ rank level)) := by
  have hsq : ¬ IsSquare ((ProofOptions.newSecure level 3).cosetOffset : FE) := by
    cases level <;> exact_mod_cast three_not_square
  obtain ⟨zeros, hz, hall⟩ := C78_cairo hta run hpi hsize hzero hpc hsegs hb hout hcov hmain (b := 2) (by norm_num)
    (by cases level <;> rfl) hsq hproof
  rw [hall _ ⟨by cases level <;> cases level' <;> rfl, by cases level <;> cases level' <;> rfl⟩]
  have h20 : (20 : Nat) ≤ zeros := by cases level <;> exact hz
  have hg : (ProofOptions.newSecure level' 3).grindingFactor.toNat ≤ zeros := by cases level' <;> exact h20
  simp only [hg, and_true]
  cases level <;> cases level' <;> rfl

/-! The hypotheses are met by the run of `simple_program`. -/

/-- The proof of a preset for the run of `simple_program`, as in
`test_verifier_rejects_proof_with_different_security_params`: it is accepted with a preset exactly when the
preset is not stronger, so at 100 bits it is accepted for 80 bits and rejected for 128 bits. -/
example (level : SecurityLevel) : ∃ proof,
    CairoAir.generateCairoProof Examples.envFar
      ⟨Examples.main0.1.flatten, (Examples.main0.1.headD []).length⟩
      Examples.main0.2 (ProofOptions.newSecure level 3) = .ok proof ∧
    ∀ level', CairoAir.verifyCairoProof Examples.envFar proof Examples.main0.2
      (ProofOptions.newSecure level' 3) = .ok (decide (rank level' ≤ rank level)) := by
  have hsq : ¬ IsSquare ((ProofOptions.newSecure level 3).cosetOffset : FE) := by
    cases level <;> exact_mod_cast three_not_square
  have hpc : ∃ t ∈ Examples.states, t.pc ≤ 5 := ⟨⟨1, 8, 8⟩, by decide, by decide⟩
  have hb : BuiltinValues Examples.mem [] := by intro s e h; cases h
  have ho : OutputAfterProgram 5 [] := by intro s e h; cases h
  have hc : OutputCovered Examples.m Examples.states 5 [] := ExecTrace.covered_of_no_output rfl
  have hmain : ExecTrace.buildMainTrace Examples.states Examples.mem Examples.pi0
      = .ok (Examples.main0.1, Examples.main0.2) := by
    rw [Examples.main0_eq, Prod.mk.eta]
  obtain ⟨proof, hp⟩ := C44_cairo_prover_succeeds (env := Examples.envFar) (a := 3) (b := 2)
    (main := Examples.main0.1) (pi' := Examples.main0.2) (options := ProofOptions.newSecure level 3) rfl
    example_run Examples.pi0_eq (by norm_num) (by decide +kernel) hpc (.inl rfl) hb ho hc hmain
    Examples.main0_length (by norm_num) (by norm_num) (by cases level <;> rfl) hsq
    (fun _ _ => far_memory _) (fun _ _ => far_offsets _)
    (samplingEnds_of (cairo_setting_of (b := 2) (by norm_num) (by norm_num) _ (by cases level <;> rfl) hsq)
      fun lde trace t h1 h2 => Examples.sampleZOodFar lde trace t (by rw [h1, h2]; norm_num))
    (by
      intro challenge
      have h20 : (ProofOptions.newSecure level 3).grindingFactor.toNat = 20 := by cases level <;> rfl
      rw [h20, Ne, C52_search_fails_iff]
      intro h
      refine h 0 (by norm_num) ⟨by norm_num, ?_⟩
      show 2 ^ 20 ∣ beNat ((Examples.digest 0).val.take 8)
      decide +kernel)
  exact ⟨proof, hp, fun level' => C78_presets (env := Examples.envFar) (main := Examples.main0.1)
    (pi' := Examples.main0.2) rfl example_run Examples.pi0_eq (by norm_num)
    (by decide +kernel) hpc (.inl rfl) hb ho hc hmain level level' hp⟩

/-- The Fibonacci rows, with two queries: three queries are too many, and no grinding factor up to the
number of zero bits matters. -/
example : ∃ proof, ∃ zeros : Nat, prove Examples.env17 ExampleAirs.fibonacci2 (ofRows rows17 2) ⟨1, 1⟩ (options17 3)
      = .ok proof ∧
    ∀ queries grinding, verify Examples.env17 ExampleAirs.fibonacci2 proof ⟨1, 1⟩ ⟨2, queries, 3, grinding⟩
      = .ok (decide (queries ≤ 2 ∧ grinding.toNat ≤ zeros)) := by
  obtain ⟨proof, hp, -⟩ := honest17
  obtain ⟨zeros, -, h⟩ := C78_honest_proof (env := Examples.env17) (air := air17) (pi := ⟨1, 1⟩)
    (new := ExampleAirs.fibonacci2) (options := options17 3) setting17
    (by rw [show (((options17 3).cosetOffset : Nat) : ZMod 17) = 3 from rfl]; decide +kernel) (by decide)
    (fun _ => rfl) (k := 2) (by norm_num) rfl (by decide)
    (fun ch => ⟨_, ExampleAirs.fibonacci2_polynomial _ _ _ air17_eq ch⟩)
    (fun _ _ aux bcs h1 _ => by
      obtain rfl := Outcome.ok.inj h1
      exact extended17 _) hp
  exact ⟨proof, zeros, hp, fun queries grinding => h ⟨2, queries, 3, grinding⟩ ⟨rfl, rfl⟩⟩

end Verif.Props
