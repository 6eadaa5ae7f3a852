import Verif.Lemmas.ReleaseProver
import Verif.Props.Release
import Verif.Props.Debug
import Verif.Props.Unsatisfied
import Verif.Props.Shape

/-!
# C80: the prover gives the same proof in every build
-/

namespace Verif.Props
open CairoAir ExecTrace TraceTable Spec
variable {T : Type} {env : Env FE T}

theorem tableRows_length (t : TraceTable FE) : (tableRows t).length = t.nRows := by simp [tableRows]

/-- The model the other properties are about and the release build. -/
theorem cairo_prove_agree {p : Prop} {trace : TraceTable FE} {pi : PublicInputs} {options : ProofOptions}
    (hn : trace.nRows < 2 ^ 56) (R : Representable pi) (hp : p → pi.numSteps ≠ 0 ∧ trace.nRows ≠ 0) :
    Agree p (generateCairoProof env trace pi options) (generateCairoProofRelease env trace pi options) := by
  refine prove_agree (air := air trace.nRows pi options) rfl rfl (cairo_sizes (by omega) pi options)
    (fun _ => cairo_noUnderflow pi options)
    (fun ch => cairo_boundary_agree R.steps (by omega) hp ch) fun ch => .inl ?_
  show (do
      let aux ← ExecTrace.buildAuxiliaryTrace pi (tableRows trace) ch
      pure (⟨aux.flatten, numberAuxiliaryRapColumns⟩ : TraceTable FE)) = (do
      let aux ← ExecTrace.buildAuxiliaryTraceRelease pi (tableRows trace) ch
      pure (⟨aux.flatten, numberAuxiliaryRapColumns⟩ : TraceTable FE))
  rw [buildAuxiliaryTrace_release (by rw [tableRows_length]; omega) R.memory R.output]

/-- What `proveDebug` does not do with an AIR it cannot make. -/
theorem debug_new {trace : TraceTable FE} {pi : PublicInputs} {options : ProofOptions}
    {r : StarkProof FE × Bool × List Nat} (h : generateCairoProofDebug env trace pi options = .ok r) :
    trace.nRows = 2 ^ Nat.log2 trace.nRows ∧ proveDebug env CairoAir.new trace pi options = .ok r := by
  unfold generateCairoProofDebug proveDebug at h
  rw [newDebug_eq] at h
  split at h
  · rename_i hpow
    refine ⟨hpow, ?_⟩
    unfold proveDebug
    exact h
  · cases h

/-- **C80.** Every proof of the debug build is the proof of the release build. -/
theorem C80_debug_proof_is_release_proof {trace : TraceTable FE} {pi : PublicInputs} {options : ProofOptions}
    (hn : trace.nRows < 2 ^ 56) (R : Representable pi) {proof : StarkProof FE} {valid : Bool} {reports : List Nat}
    (h : generateCairoProofDebug env trace pi options = .ok (proof, valid, reports)) :
    generateCairoProofRelease env trace pi options = .ok proof := by
  obtain ⟨-, h⟩ := debug_new h
  obtain ⟨h, -⟩ := C69_same_proof h
  rcases cairo_prove_agree (env := env) (options := options) hn R id with e | ⟨e, -⟩
  · rw [← e]; exact h
  · cases e.symm.trans h

/-- **C80.** For a trace of the layout and a number of steps between one and the length of the trace, the two builds
return the same proof or both fail. -/
theorem C80_builds_agree {pi : PublicInputs} (R : Representable pi) {options : ProofOptions} {a b : Nat} (ha : 1 ≤ a)
    (ha' : a < 56) (hb : 1 ≤ b) (hbl : options.blowupFactor.toNat = 2 ^ b)
    (hsq : ¬ IsSquare (options.cosetOffset : FE)) {main : List (List FE)} (hlen : main.length = 2 ^ a)
    (hw : ∀ r ∈ main, r.length = 43 - builtinOffset (hasRcBuiltin pi)) (hsteps : 1 ≤ pi.numSteps)
    (hsteps' : pi.numSteps ≤ main.length) (proof : StarkProof FE) :
    let trace : TraceTable FE := ⟨main.flatten, 43 - builtinOffset (hasRcBuiltin pi)⟩
    generateCairoProofRelease env trace pi options = .ok proof ↔
      ∃ valid, generateCairoProofDebug env trace pi options = .ok (proof, valid, []) := by
  intro trace
  have hk : 0 < 43 - builtinOffset (hasRcBuiltin pi) := by cases hasRcBuiltin pi <;> decide
  have hrows : trace.nRows = 2 ^ a := by rw [← hlen]; exact nRows_ofRows main _ hk hw
  have hn : trace.nRows < 2 ^ 56 := by rw [hrows]; exact Nat.pow_lt_pow_right (by norm_num) ha'
  constructor
  · intro h
    have hp : generateCairoProof env trace pi options = .ok proof := by
      rcases cairo_prove_agree (p := True) (env := env) (options := options) hn R
        (fun _ => ⟨by omega, by rw [hrows]; positivity⟩) with e | ⟨-, e⟩
      · rw [e]; exact h
      · exact absurd trivial e
    obtain ⟨valid, -, -, -, -, -, h, -⟩ := C69_debug_succeeds (env := env) (new := CairoAir.new) (pi := pi)
      (options := options) (cairo_setting_of ha hb pi hbl hsq) rfl hk hlen hw
      (fun ch => ⟨_, air_polynomial _ _ _ ch⟩)
      (fun ch => declared (2 ^ a) pi options ch (by positivity) (by omega)) (fun ch aux haux => by
        simp only [air, Outcome.bind_eq_ok, Outcome.pure_eq, Outcome.ok.injEq] at haux
        obtain ⟨auxRows, haux, rfl⟩ := haux
        rw [tableRows_ofRows hk hw] at haux
        exact ⟨_, (cairo_joined (n := 2 ^ a) (options := options) hw haux).2⟩) hp
    refine ⟨valid, ?_⟩
    rw [← h]
    unfold generateCairoProofDebug proveDebug
    rw [newDebug_eq, if_pos (log2_pow hrows)]
    rfl
  · rintro ⟨valid, h⟩
    exact C80_debug_proof_is_release_proof hn R h

/-- The prover calls `boundary_constraints` before it returns. -/
theorem debug_boundary {trace : TraceTable FE} {pi : PublicInputs} {options : ProofOptions}
    (h : ∀ ch, boundaryConstraints pi trace.nRows ch = .panic) :
    generateCairoProofDebug env trace pi options = .panic := by
  cases hd : generateCairoProofDebug env trace pi options with
  | panic => rfl
  | err e => exact e.elim
  | ok r =>
    obtain ⟨-, hd⟩ := debug_new hd
    unfold proveDebug at hd
    simp only [Outcome.bind_eq_ok] at hd
    obtain ⟨A, hA, d, -, r1, -, v, -, bd, hbd, -⟩ := hd
    obtain rfl := Outcome.ok.inj hA
    have := h r1.1.rapChallenges
    change boundaryConstraints pi trace.nRows r1.1.rapChallenges = .ok bd at hbd
    rw [this] at hbd
    cases hbd

/-- **C80.** Outside of these cases the debug build returns no proof: it panics on a trace length that is not a power
of two, on a claim of zero steps, and on a claim of more steps than the trace has rows. -/
theorem C80_debug_panics {trace : TraceTable FE} {pi : PublicInputs} {options : ProofOptions}
    (h : (∀ a, trace.nRows ≠ 2 ^ a) ∨ pi.numSteps = 0 ∨ trace.nRows < pi.numSteps) :
    generateCairoProofDebug env trace pi options = .panic := by
  rcases h with h | h | h
  · unfold generateCairoProofDebug proveDebug
    rw [newDebug_eq, if_neg (h _)]
    rfl
  · refine debug_boundary fun ch => ?_
    unfold boundaryConstraints
    rw [if_pos (.inl h)]
  · cases hd : generateCairoProofDebug env trace pi options with
    | panic => rfl
    | err e => exact e.elim
    | ok r =>
      exfalso
      obtain ⟨hpow, hd⟩ := debug_new hd
      unfold proveDebug at hd
      simp only [Outcome.bind_eq_ok] at hd
      obtain ⟨A, hA, d, hdom, r1, hr1, v, hv, -⟩ := hd
      obtain rfl := Outcome.ok.inj hA
      unfold validateTrace at hv
      simp only [Outcome.bind_eq_ok] at hv
      obtain ⟨table, htable, hv⟩ := hv
      unfold validateTable at hv
      simp only [Outcome.bind_eq_ok] at hv
      obtain ⟨bd, hbd, b, hb, -⟩ := hv
      obtain ⟨-, -, lo, hi, -, -, -, rfl⟩ := boundaryConstraints_ok hbd
      have hsize : d.interpolationDomainSize = trace.nRows := by
        unfold Domain.new at hdom
        simp only [Outcome.bind_eq_ok] at hdom
        obtain ⟨g, -, roots, -, hdom⟩ := hdom
        split at hdom
        · cases hdom
        simp only [Outcome.bind_eq_ok, Outcome.pure_eq, Outcome.ok.injEq] at hdom
        obtain ⟨lde, -, rfl⟩ := hdom
        rfl
      have hlen : table.table.length = trace.nRows * table.nCols := by
        unfold newFromCols at htable
        simp only [Outcome.bind_eq_ok, Outcome.pure_eq, Outcome.ok.injEq] at htable
        obtain ⟨first, hfirst, rows, hrows, rfl⟩ := htable
        obtain ⟨hlt, rfl⟩ := List.getElem?_eq_some_iff.mp (index_eq_ok.mp hfirst)
        have h1 := (mapOutcome_mem hrows).1
        simp only [List.getElem_map, List.length_map, List.length_range, hsize] at h1
        have h2 : ∀ r ∈ rows, r.length = (r1.1.tracePolys.map fun p =>
            (List.range d.interpolationDomainSize).map fun i => p.eval (d.tracePrimitiveRoot ^ i)).length := by
          intro r hr
          obtain ⟨i, hi, rfl⟩ := List.mem_iff_getElem.mp hr
          have hm := mapOutcome_mem hrows
          exact (mapOutcome_mem (hm.2 i (by rw [← hm.1]; exact hi) hi)).1
        rw [List.length_flatten, List.map_congr_left h2, List.map_const', List.sum_replicate, h1, smul_eq_mul]
      simp only [validateBoundary, Outcome.bind_eq_ok] at hb
      obtain ⟨-, -, -, ⟨-, -, -, ⟨x, hx, -⟩, -⟩, -⟩ := hb
      unfold TraceTable.get at hx
      obtain ⟨hlt, -⟩ := List.getElem?_eq_some_iff.mp (index_eq_ok.mp hx)
      have := Nat.mul_le_mul_right table.nCols (show trace.nRows ≤ pi.numSteps - 1 by omega)
      omega

/-- **C80.** The two builds make the same main trace and update the public inputs in the same way, except that the
debug build panics when a call is executed whose return address does not fit in 64 bits. -/
theorem C80_main_trace (states : List RegistersState) (mem : CairoMemory) (pi : PublicInputs) :
    buildMainTrace states mem pi = buildMainTraceRelease states mem pi ∨
      (buildMainTrace states mem pi = .panic ∧ ∃ t ∈ states, CallOverflows mem t) := by
  rcases buildMainTrace_agree (mem := mem) (states := states) (pi := pi) id with h | ⟨h, hp⟩
  · exact .inl h
  · push Not at hp
    exact .inr ⟨h, hp⟩

/-- **C80**: the release build is complete. For every run of the Cairo machine as in C44, the proof that the release
build of the prover makes of the trace that it has made is accepted by the release build of the verifier. -/
theorem C80_release_complete (hta : env.ta = starkRoots) {mem : CairoMemory} {m : FE → FE}
    {states : List RegistersState} (run : HonestRun mem m states) {size : Nat} {segs : MemorySegmentMap}
    {pi pi' : PublicInputs} (hpi : fromRegsAndMem states mem size segs = .ok pi) (hsize : size < 2 ^ 64)
    (hzero : mem.get? 0 = none) (hpc : ∃ t ∈ states, t.pc ≤ size)
    (hsegs : segs = [] ∨ ∃ r, segs.get? .rangeCheck = some r) (hb : BuiltinValues mem segs)
    (hout : OutputAfterProgram size segs) (hcov : OutputCovered m states size segs)
    (hcall : ∀ t ∈ states, ¬ CallOverflows mem t) (R : Representable pi) {main : List (List FE)}
    (hmain : buildMainTraceRelease states mem pi = .ok (main, pi')) (hlen : main.length < 2 ^ 56)
    {options : ProofOptions} {b : Nat} (hb1 : 1 ≤ b) (hbl : options.blowupFactor.toNat = 2 ^ b)
    (hsq : ¬ IsSquare (options.cosetOffset : FE)) {proof : StarkProof FE}
    (hproof : generateCairoProofRelease env ⟨main.flatten, (main.headD []).length⟩ pi' options = .ok proof) :
    verifyCairoProofRelease env proof pi' options = .ok true := by
  rcases C80_main_trace states mem pi with h | ⟨-, t, ht, hc⟩
  swap
  · exact absurd hc (hcall t ht)
  rw [← h] at hmain
  obtain ⟨⟨a, ha, hlen'⟩, hw, hhd, hst, hne, lo, hi, hpi'⟩ := main_shape hmain
  have hk : 0 < mainWidth pi := by have := mainWidth_ge pi; omega
  obtain ⟨-, -, -, -, -, -, -, -, hns, -⟩ := fromRegsAndMem_regs hpi
  have hsteps : pi'.numSteps = states.length := by rw [hpi']; exact hns
  have R' : Representable pi' := by
    rw [hpi']
    exact ⟨R.steps, R.memory, R.output⟩
  have hrows : TraceTable.nRows ⟨main.flatten, (main.headD []).length⟩ = main.length := by
    rw [hhd]
    exact nRows_ofRows main _ hk hw
  have hproof' : generateCairoProof env ⟨main.flatten, (main.headD []).length⟩ pi' options = .ok proof := by
    rcases cairo_prove_agree (p := True) (env := env) (options := options)
      (trace := ⟨main.flatten, (main.headD []).length⟩) (by rw [hrows]; exact hlen) R'
      (fun _ => ⟨by rw [hsteps]; exact fun h => hne (List.length_eq_zero_iff.1 h), by
        rw [hrows, hlen']; positivity⟩) with e | ⟨-, e⟩
    · rw [e]; exact hproof
    · exact absurd trivial e
  have hv := C44_cairo_honest_proofs_verify hta run hpi hsize hzero hpc hsegs hb hout hcov hmain hb1 hbl hsq hproof'
  obtain ⟨-, hshape⟩ := C62_cairo_proof_shape run hpi hsize hzero hpc hsegs hb hout hcov hmain hlen' hb1 hbl hsq hproof'
  have h64 : a < 64 := (Nat.pow_lt_pow_iff_right (by norm_num : 1 < 2)).mp
    (show 2 ^ a < 2 ^ 64 by rw [← hlen']; omega)
  refine (C74_model_between env proof pi' options hshape.traceLength hbl
    (by rw [hshape.traceLength, ← hlen']; omega) R'.steps fun q hq => ?_).2 true hv
  rw [(hshape.query q hq).1]
  omega

/-- The evaluator reads the step of a boundary constraint only as a power of the generator of the trace domain. -/
theorem evaluateConstraintsRelease_steps {ta : TwoAdic FE} {A : Air FE (RAPChallenges FE)} {lde : TraceTable FE}
    {d : Domain FE}
    {tc bc : List (FE × FE)} {ch : RAPChallenges FE} {bs bs' : List (BoundaryConstraint FE)}
    (h : List.Forall₂ (fun c c' => c.col = c'.col ∧ c.value = c'.value ∧
      d.tracePrimitiveRoot ^ c.step = d.tracePrimitiveRoot ^ c'.step) bs bs') :
    evaluateConstraintsRelease ta A bs lde d tc bc ch = evaluateConstraintsRelease ta A bs' lde d tc bc ch := by
  have h1 : mapOutcome (fun bc : BoundaryConstraint FE =>
        Verif.batchInverse (d.ldeRootsOfUnityCoset.map fun v => v - d.tracePrimitiveRoot ^ bc.step)) bs =
      mapOutcome (fun bc : BoundaryConstraint FE =>
        Verif.batchInverse (d.ldeRootsOfUnityCoset.map fun v => v - d.tracePrimitiveRoot ^ bc.step)) bs' := by
    induction h with
    | nil => rfl
    | cons h _ ih =>
      simp only [mapOutcome]
      rw [ih, h.2.2]
  have h2 : (bs.map fun c =>
        (columnOf lde.table c.col lde.nCols d.ldeRootsOfUnityCoset.length).map (· - c.value)) =
      bs'.map fun c => (columnOf lde.table c.col lde.nCols d.ldeRootsOfUnityCoset.length).map (· - c.value) := by
    clear h1
    induction h with
    | nil => rfl
    | cons h _ ih =>
      simp only [List.map_cons]
      rw [ih, h.1, h.2.1]
  have h3 : bs ≠ [] ↔ bs' ≠ [] := by
    cases h <;> simp
  unfold evaluateConstraintsRelease
  dsimp only
  simp only [h1, h2, h.length_eq, h3]

theorem proveRelease_steps {new new' : AirNew FE (RAPChallenges FE) PublicInputs}
    {trace : TraceTable FE} {pi pi' : PublicInputs} {options : ProofOptions} {A : Air FE (RAPChallenges FE)}
    {f f' : RAPChallenges FE → Outcome Empty (List (BoundaryConstraint FE))}
    (h : new trace.nRows pi options = .ok { A with boundaryConstraints := f })
    (h' : new' trace.nRows pi' options = .ok { A with boundaryConstraints := f' })
    (hs : ∀ d, Domain.new env.ta A = .ok d → ∀ ch, SameSteps d.tracePrimitiveRoot (f ch) (f' ch)) :
    proveRelease env new trace pi options = proveRelease env new' trace pi' options := by
  unfold proveRelease
  rw [h, h', Outcome.bind_ok, Outcome.bind_ok]
  change (Domain.new env.ta A >>= _) = (Domain.new env.ta A >>= _)
  cases hd : Domain.new env.ta A with
  | panic => rfl
  | err e => exact e.elim
  | ok d =>
    have hs := hs d hd
    rw [Outcome.bind_ok, Outcome.bind_ok]
    change (round1 env A trace d env.tr.init >>= _) = (round1 env A trace d env.tr.init >>= _)
    congr 1
    funext r1
    dsimp only
    have h2 : ∀ tc bc, round2Release env { A with boundaryConstraints := f } d r1.1 tc bc
        = round2Release env { A with boundaryConstraints := f' } d r1.1 tc bc := by
      intro tc bc
      unfold round2Release
      dsimp only
      rcases hs r1.1.rapChallenges with ⟨h1, h2⟩ | ⟨bs, bs', h1, h2, h3⟩
      · rw [h1, h2]; rfl
      · rw [h1, h2, Outcome.bind_ok, Outcome.bind_ok]
        change (evaluateConstraintsRelease env.ta A bs _ _ _ _ _ >>= _) =
          (evaluateConstraintsRelease env.ta A bs' _ _ _ _ _ >>= _)
        rw [evaluateConstraintsRelease_steps h3]
    rcases hs r1.1.rapChallenges with ⟨h1, h2⟩ | ⟨bs, bs', h1, h3, h4⟩
    · rw [h1, h2]; rfl
    · rw [h1, h3, Outcome.bind_ok, Outcome.bind_ok, h4.length_eq]
      simp only [h2]
      rfl

theorem pow_wrapping {g : FE} {n N s s' : Nat} (h : n ∣ N) (hN : 1 ≤ N) (hg : g ^ n = 1) (hmod : s % n = s' % n) :
    g ^ ((s + N - 1) % N) = g ^ ((s' + N - 1) % N) := by
  have hgN : g ^ N = 1 := by
    obtain ⟨k, rfl⟩ := h
    rw [pow_mul, hg, one_pow]
  rw [← pow_eq_pow_mod _ hgN, ← pow_eq_pow_mod _ hgN, show s + N - 1 = s + (N - 1) by omega,
    show s' + N - 1 = s' + (N - 1) by omega, pow_add, pow_add, pow_eq_pow_mod s hg, pow_eq_pow_mod s' hg, hmod]

theorem wrappingSub_eq (s : Nat) : ∀ N, N = 2 ^ 64 → wrappingSub s 1 = (s + N - 1) % N := by
  intro N h
  unfold wrappingSub
  rw [h]

theorem wrapped_steps {g : FE} {a s s' : Nat} (ha' : a ≤ 64) (hg : g ^ 2 ^ a = 1)
    (hmod : s % 2 ^ a = s' % 2 ^ a) : g ^ wrappingSub s 1 = g ^ wrappingSub s' 1 := by
  obtain ⟨N, hN⟩ : ∃ N, N = 2 ^ 64 := ⟨_, rfl⟩
  rw [wrappingSub_eq s N hN, wrappingSub_eq s' N hN]
  have hdvd : 2 ^ a ∣ N := by rw [hN]; exact pow_dvd_pow 2 ha'
  have hone : 1 ≤ N := by rw [hN]; norm_num
  exact pow_wrapping hdvd hone hg hmod

/-- Numbers of steps that differ by a multiple of the trace length give the same constraints in release builds. -/
theorem release_sameSteps {pi : PublicInputs} {n a s s' : Nat} (ha' : a ≤ 64) {g : FE} (hg : g ^ 2 ^ a = 1)
    (hmod : s % 2 ^ a = s' % 2 ^ a) (ch : RAPChallenges FE) :
    SameSteps g (boundaryConstraintsRelease { pi with numSteps := s } n ch)
      (boundaryConstraintsRelease { pi with numSteps := s' } n ch) := by
  have hw := wrapped_steps ha' hg hmod
  unfold boundaryConstraintsRelease
  dsimp only
  cases inv (pi.publicMemory.foldl (fun product e => product * (ch.zMemory - (e.1 + ch.alphaMemory * e.2))) 1) with
  | panic => exact .inl ⟨rfl, rfl⟩
  | err e => exact e.elim
  | ok x =>
    cases pi.rangeCheckMin with
    | none => exact .inl ⟨rfl, rfl⟩
    | some lo =>
      cases pi.rangeCheckMax with
      | none => exact .inl ⟨rfl, rfl⟩
      | some hi =>
        refine .inr ⟨_, _, rfl, rfl, ?_⟩
        exact .cons ⟨rfl, rfl, rfl⟩ (.cons ⟨rfl, rfl, rfl⟩ (.cons ⟨rfl, rfl, hw⟩ (.cons ⟨rfl, rfl, hw⟩
          (.cons ⟨rfl, rfl, rfl⟩ (.cons ⟨rfl, rfl, rfl⟩ (.cons ⟨rfl, rfl, rfl⟩ (.cons ⟨rfl, rfl, rfl⟩ .nil)))))))

theorem domain_root {a : Nat} (ha : 1 ≤ a) (ha' : a < 64) {A : Air FE (RAPChallenges FE)} (hn : A.traceLength = 2 ^ a)
    {d : Domain FE} (hd : Domain.new env.ta A = .ok d) : d.tracePrimitiveRoot ^ 2 ^ a = 1 := by
  unfold Domain.new at hd
  simp only [Outcome.bind_eq_ok] at hd
  obtain ⟨g, hroot, roots, -, hd⟩ := hd
  split at hd
  · cases hd
  simp only [Outcome.bind_eq_ok, Outcome.pure_eq, Outcome.ok.injEq] at hd
  obtain ⟨lde, -, rfl⟩ := hd
  rw [hn, trailingZeros_pow ha', getRoot_ok] at hroot
  exact (env.ta.primitive a _ ha hroot).pow_eq_one

theorem aux_ignores_steps (pi : PublicInputs) (s : Nat) :
    buildAuxiliaryTraceRelease { pi with numSteps := s } = buildAuxiliaryTraceRelease pi := by
  have h : ∀ addresses values, addPubMemoryRelease addresses values { pi with numSteps := s }
      = addPubMemoryRelease addresses values pi := by
    intro addresses values
    unfold addPubMemoryRelease
    simp only
  funext rows ch
  unfold buildAuxiliaryTraceRelease
  simp only [h]

/-- The AIR of the release build, by number of steps. -/
theorem newReleaseProver_steps (n : Nat) (pi : PublicInputs) (options : ProofOptions) (s : Nat) :
    newReleaseProver n { pi with numSteps := s } options =
      .ok { air n pi options with
        buildAuxiliaryTrace := fun main ch => do
          let aux ← buildAuxiliaryTraceRelease pi (tableRows main) ch
          return ⟨aux.flatten, numberAuxiliaryRapColumns⟩
        boundaryConstraints := boundaryConstraintsRelease { pi with numSteps := s } n } := by
  unfold newReleaseProver
  rw [aux_ignores_steps]
  rfl

/-- **C80.** Where the debug build panics because of the number of steps, the release build makes the proof for another
number of steps: for every two numbers of steps, zero included, that differ by a multiple of the length of the trace it
makes the same proof, and accepts the same proofs. -/
theorem C80_release_steps_modulo (trace : TraceTable FE) (proof : StarkProof FE) (pi : PublicInputs)
    (options : ProofOptions) {a s s' : Nat} (ha : 1 ≤ a) (ha' : a < 64) (hmod : s % 2 ^ a = s' % 2 ^ a) :
    (trace.nRows = 2 ^ a → generateCairoProofRelease env trace { pi with numSteps := s } options =
      generateCairoProofRelease env trace { pi with numSteps := s' } options) ∧
    (proof.traceLength = 2 ^ a → verifyCairoProofRelease env proof { pi with numSteps := s } options =
      verifyCairoProofRelease env proof { pi with numSteps := s' } options) := by
  refine ⟨fun hn => ?_, fun hn => ?_⟩
  · exact proveRelease_steps (A := { air trace.nRows pi options with
        buildAuxiliaryTrace := fun main ch => do
          let aux ← buildAuxiliaryTraceRelease pi (tableRows main) ch
          return ⟨aux.flatten, numberAuxiliaryRapColumns⟩ }) (newReleaseProver_steps _ _ _ _)
      (newReleaseProver_steps _ _ _ _) fun d hd ch => release_sameSteps ha'.le (domain_root ha ha' hn hd) hmod ch
  · exact verifyRelease_steps (A := air proof.traceLength pi options) rfl rfl
      fun d hd ch => release_sameSteps ha'.le (domain_root ha ha' hn hd) hmod ch

/-! The hypotheses are met by the run of `simple_program`. -/

theorem main0_representable : Representable Examples.main0.2 :=
  ⟨by decide +kernel, by decide +kernel, by
    have h : Examples.main0.2.memorySegments.get? .output = none := by decide +kernel
    rw [h]
    rintro _ _ ⟨⟩⟩

theorem pi0_representable : Representable Examples.pi0 :=
  ⟨by decide +kernel, by decide +kernel, by
    have h : Examples.pi0.memorySegments.get? .output = none := by decide +kernel
    rw [h]
    rintro _ _ ⟨⟩⟩

theorem main0_rows : TraceTable.nRows ⟨Examples.main0.1.flatten, (Examples.main0.1.headD []).length⟩ = 8 := by
  decide +kernel

theorem states_no_overflow : ∀ t ∈ Examples.states, ¬ CallOverflows Examples.mem t := by
  rintro t ht ⟨f, o, -, -, h⟩
  have h2 : Examples.states.all (fun t => decide (t.pc + 2 < 2 ^ 64)) = true := by decide +kernel
  have := of_decide_eq_true (List.all_eq_true.1 h2 t ht)
  split at h <;> omega

/-- Both builds return the same proof of the run, and the release build accepts it. -/
example : ∃ proof valid,
    let trace : TraceTable FE := ⟨Examples.main0.1.flatten, (Examples.main0.1.headD []).length⟩
    buildMainTraceRelease Examples.states Examples.mem Examples.pi0 = .ok (Examples.main0.1, Examples.main0.2) ∧
    generateCairoProofRelease Examples.envFar trace Examples.main0.2 ProofOptions.defaultTestOptions = .ok proof ∧
    generateCairoProofDebug Examples.envFar trace Examples.main0.2 ProofOptions.defaultTestOptions
      = .ok (proof, valid, []) ∧
    verifyCairoProofRelease Examples.envFar proof Examples.main0.2 ProofOptions.defaultTestOptions = .ok true := by
  obtain ⟨proof, hp, -⟩ := example_cairo_proof
  have hsq : ¬ IsSquare (ProofOptions.defaultTestOptions.cosetOffset : FE) := by exact_mod_cast three_not_square
  have hmain : buildMainTraceRelease Examples.states Examples.mem Examples.pi0
      = .ok (Examples.main0.1, Examples.main0.2) := by
    rcases C80_main_trace Examples.states Examples.mem Examples.pi0 with h | ⟨-, t, ht, hc⟩
    · rw [← h, Examples.main0_eq, Prod.mk.eta]
    · exact absurd hc (states_no_overflow t ht)
  have hrel : generateCairoProofRelease Examples.envFar
      ⟨Examples.main0.1.flatten, (Examples.main0.1.headD []).length⟩ Examples.main0.2
      ProofOptions.defaultTestOptions = .ok proof := by
    rcases cairo_prove_agree (p := True) (env := Examples.envFar) (options := ProofOptions.defaultTestOptions)
      (trace := ⟨Examples.main0.1.flatten, (Examples.main0.1.headD []).length⟩) (by rw [main0_rows]; norm_num)
      main0_representable (fun _ => ⟨by decide +kernel, by rw [main0_rows]; norm_num⟩) with e | ⟨-, e⟩
    · rw [← e]; exact hp
    · exact absurd trivial e
  have hk : (Examples.main0.1.headD []).length = 43 - builtinOffset (hasRcBuiltin Examples.main0.2) := by
    decide +kernel
  have hdeb := (C80_builds_agree (env := Examples.envFar) (a := 3) (b := 2) (options := ProofOptions.defaultTestOptions)
    (main := Examples.main0.1) main0_representable (by norm_num) (by norm_num) (by norm_num) (by decide) hsq
    Examples.main0_length (by
      have h : Examples.main0.1.all
        (fun r => decide (r.length = 43 - builtinOffset (hasRcBuiltin Examples.main0.2))) = true := by decide +kernel
      intro r hr
      exact of_decide_eq_true (List.all_eq_true.1 h r hr)) (by decide +kernel) (by decide +kernel) proof).mp
    (by rw [← hk]; exact hrel)
  obtain ⟨valid, hdeb⟩ := hdeb
  refine ⟨proof, valid, hmain, hrel, by rw [hk]; exact hdeb, ?_⟩
  exact C80_release_complete (env := Examples.envFar) rfl example_run Examples.pi0_eq (by norm_num) (by decide +kernel)
    ⟨⟨1, 8, 8⟩, by decide, by decide⟩ (.inl rfl) (by intro s e h; cases h) (by intro s e h; cases h)
    (ExecTrace.covered_of_no_output rfl) states_no_overflow pi0_representable hmain
    (by rw [Examples.main0_length]; norm_num) (b := 2) (by norm_num) (by decide) hsq hrel

/-- For a claim of eight steps more than the run made the release build returns this proof too, and accepts it, while
the debug build panics. -/
example : ∃ proof,
    let trace : TraceTable FE := ⟨Examples.main0.1.flatten, (Examples.main0.1.headD []).length⟩
    let pi := { Examples.main0.2 with numSteps := Examples.main0.2.numSteps + 8 }
    generateCairoProofRelease Examples.envFar trace pi ProofOptions.defaultTestOptions = .ok proof ∧
    generateCairoProofDebug Examples.envFar trace pi ProofOptions.defaultTestOptions = .panic := by
  obtain ⟨proof, hp, -⟩ := example_cairo_proof
  refine ⟨proof, ?_, C80_debug_panics (.inr (.inr ?_))⟩
  · rw [(C80_release_steps_modulo _ proof Examples.main0.2 ProofOptions.defaultTestOptions (a := 3)
      (s := Examples.main0.2.numSteps + 8) (s' := Examples.main0.2.numSteps) (by norm_num) (by norm_num)
      (by omega)).1 main0_rows]
    rcases cairo_prove_agree (p := True) (env := Examples.envFar) (options := ProofOptions.defaultTestOptions)
      (trace := ⟨Examples.main0.1.flatten, (Examples.main0.1.headD []).length⟩) (by rw [main0_rows]; norm_num)
      main0_representable (fun _ => ⟨by decide +kernel, by rw [main0_rows]; norm_num⟩) with e | ⟨-, e⟩
    · rw [← e]; exact hp
    · exact absurd trivial e
  · rw [main0_rows]
    show 8 < Examples.main0.2.numSteps + 8
    have : 0 < Examples.main0.2.numSteps := by decide +kernel
    omega

/-- A call at the last address of 64 bits: `call abs [fp - 1]` with all its operands nearby. The debug build panics on
its return address, the release build makes a trace. -/
example : let top := 2 ^ 64
    let mem : CairoMemory := [(top - 1, 0x10887FFF80018000), (top - 5, 0), (top - 4, (top - 4 : Nat)), (top - 6, 7)]
    let states : List RegistersState := [⟨top - 1, top - 5, top - 5⟩]
    let pi : PublicInputs := { Examples.pi0 with publicMemory := [], memorySegments := [] }
    (∃ t ∈ states, CallOverflows mem t) ∧ buildMainTrace states mem pi = .panic ∧
      ∃ r, buildMainTraceRelease states mem pi = .ok r := by
  intro top mem states pi
  have hrel : ∃ r, buildMainTraceRelease states mem pi = .ok r := by
    refine ⟨_, Outcome.eq_ok_getD (x := buildMainTraceRelease states mem pi) ([], pi) ?_⟩
    decide +kernel
  have hdeb : buildMainTrace states mem pi = .panic := by decide +kernel
  refine ⟨?_, hdeb, hrel⟩
  rcases C80_main_trace states mem pi with h | ⟨-, h⟩
  · obtain ⟨r, hr⟩ := hrel
    rw [hdeb, hr] at h
    cases h
  · exact h

end Verif.Props
