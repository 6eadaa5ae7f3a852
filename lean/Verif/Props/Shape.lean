import Verif.Lemmas.Shape
import Verif.Props.CairoHonest

/-!
# C62: the size of proofs
-/

namespace Verif.Props
open Spec Polynomial TraceTable
variable {F T Ch : Type} [Field F] [DecidableEq F] {env : Env F T}

/-- **C62**: the proof of a satisfying trace of `2^a` rows with blowup `2^b` has the shape `ProofShape`: its
numbers of roots, values, queries, openings and path nodes depend on nothing but `a`, `b`, the number of
columns, of transition offsets and of queries, and whether there is an auxiliary trace. -/
theorem C62_proof_shape {PI : Type} {new : AirNew F Ch PI} {pi : PI} {options : ProofOptions}
    {air : Air F Ch} {a b : Nat} (S : Setting air a b) (hnew : new (2 ^ a) pi options = .ok air)
    {rows : List (List F)} {k : Nat} (hk : 0 < k)
    (hrows : rows.length = 2 ^ a) (hr : ∀ r ∈ rows, r.length = k)
    (hc : ∀ ch, ∃ cs, PolynomialConstraints air ch cs)
    (hsat : ∀ root, CommitmentTo env air (ofRows rows k) root → ∀ aux bcs,
      air.buildAuxiliaryTrace (ofRows rows k) (challengesAfter env air root) = .ok aux →
      air.boundaryConstraints (challengesAfter env air root) = .ok bcs →
      SatisfiesExtended air rows k (challengesAfter env air root) aux)
    {proof : StarkProof F} (hproof : prove env new (ofRows rows k) pi options = .ok proof) :
    ∃ root aux, CommitmentTo env air (ofRows rows k) root ∧
      air.buildAuxiliaryTrace (ofRows rows k) (challengesAfter env air root) = .ok aux ∧
      ProofShape proof a b air.context.traceColumns (if aux.nCols = 0 then 1 else 2)
        air.context.transitionOffsets.length air.context.proofOptions.friNumberOfQueries := by
  have hnr : (ofRows rows k).nRows = 2 ^ a := by rw [nRows_ofRows _ _ hk hr, hrows]
  obtain ⟨d, c, t, r1, r2, deep, layers, ps, hd, hstep, U⟩ :=
    prove_replay (by rw [hnr]; exact hnew) S.rows S.length S.blowup hproof
  obtain ⟨g, w, D⟩ := domain_new S.rows S.length S.blowup hd
  obtain ⟨tf, hfirst⟩ := U.first
  obtain ⟨root, hroot, hrap⟩ := round1_commitment hd hk hrows hr D hfirst
  obtain ⟨cs, hcs⟩ := hc c.rapChallenges
  obtain ⟨aux, haux, hshape⟩ := shape_run D S.length S.blowup S.extended S.offset S.fits hk hrows hr hstep U
    hcs (by rw [← U.rap, hrap]; exact hsat root hroot)
  rw [← U.rap, hrap] at haux
  exact ⟨root, aux, hroot, haux, hshape⟩

/-- **C62**: the encoding of a proof of a given shape always succeeds when there is a row, and takes
`proofBytes` bytes. -/
theorem C62_proof_size {p : StarkProof FE} {a b cols trees offsets queries : Nat} (ha : 1 ≤ a)
    (S : ProofShape p a b cols trees offsets queries) :
    ∃ bs, p.serialize = .ok bs ∧ bs.length = proofBytes a b cols trees offsets queries := by
  obtain ⟨bs, h⟩ := (C01_serialize_total_iff p).2 (by
    intro q hq h0
    have := (S.query q hq).1
    rw [h0, List.length_nil] at this
    omega)
  exact ⟨bs, h, serialize_length S h⟩

/-- **C62**: the bytes of a query are quadratic in the logarithm of the number of rows. -/
theorem C62_query_bytes (a b : Nat) : queryBytes a b = 48 + 112 * a + 64 * (a * b) + 32 * (a * a) := by
  have h : ∀ n, n ≤ a → 2 * ((List.range n).map fun k => pathBytes (a + b - k)).sum + 32 * (n * n)
      = 48 * n + 64 * (n * (a + b)) := by
    intro n
    induction n with
    | zero => simp
    | succ n ih =>
      intro hn
      have := ih (by omega)
      rw [List.range_succ, List.map_append, List.sum_append, List.map_singleton, List.sum_singleton]
      obtain ⟨c, hc⟩ : ∃ c, a + b = c + n := ⟨a + b - n, by omega⟩
      rw [hc] at this ⊢
      simp only [pathBytes, Nat.add_sub_cancel] at this ⊢
      nlinarith
  have h1 := h a le_rfl
  unfold queryBytes
  nlinarith

/-- **C62** for Cairo: the shape of the proof of a run whose trace has `2^a` rows, with blowup `2^b`. -/
theorem C62_cairo_proof_shape {env : Env FE T} {mem : CairoMemory} {m : FE → FE}
    {states : List RegistersState} (run : HonestRun mem m states) {size : Nat} {segs : MemorySegmentMap}
    {pi pi' : PublicInputs} (hpi : ExecTrace.fromRegsAndMem states mem size segs = .ok pi) (hsize : size < 2 ^ 64)
    (hzero : mem.get? 0 = none) (hpc : ∃ t ∈ states, t.pc ≤ size)
    (hsegs : segs = [] ∨ ∃ r, segs.get? .rangeCheck = some r) (hb : BuiltinValues mem segs)
    (hout : OutputAfterProgram size segs) (hcov : OutputCovered m states size segs)
    {main : List (List FE)} (hmain : ExecTrace.buildMainTrace states mem pi = .ok (main, pi'))
    {options : ProofOptions} {a b : Nat} (hlen : main.length = 2 ^ a) (hb1 : 1 ≤ b)
    (hbl : options.blowupFactor.toNat = 2 ^ b)
    (hsq : ¬ IsSquare (options.cosetOffset : FE)) {proof : StarkProof FE}
    (hproof : CairoAir.generateCairoProof env ⟨main.flatten, (main.headD []).length⟩ pi' options = .ok proof) :
    1 ≤ a ∧ ProofShape proof a b (if segs = [] then 52 else 61) 2 2 options.friNumberOfQueries := by
  obtain ⟨⟨a', ha, hlen'⟩, hw, hhd, -, -, lo, hi, hpi'⟩ := main_shape hmain
  obtain rfl : a' = a := Nat.pow_right_injective le_rfl (hlen'.symm.trans hlen)
  have hk : 0 < ExecTrace.mainWidth pi := by have := ExecTrace.mainWidth_ge pi; omega
  rw [hhd] at hproof
  have S := cairo_setting_of ha hb1 pi' hbl hsq
  have hnew : CairoAir.new (2 ^ a') pi' options = .ok (CairoAir.air (2 ^ a') pi' options) := rfl
  obtain ⟨root, aux, -, haux, hshape⟩ := C62_proof_shape S hnew hk hlen hw
    (fun ch => ⟨_, CairoAir.air_polynomial _ _ _ ch⟩) (env := env) (by
      intro _ _ aux bcs haux _
      simp only [CairoAir.air, Outcome.bind_eq_ok, Outcome.pure_eq, Outcome.ok.injEq] at haux
      obtain ⟨auxRows, haux, rfl⟩ := haux
      rw [tableRows_ofRows hk hw] at haux
      have := cairo_satisfiesExtended run hpi hsize hzero hpc hsegs hb hout hcov hmain options _ haux
      rwa [hlen] at this) hproof
  have hcols : (CairoAir.air (2 ^ a') pi' options).context.traceColumns = if segs = [] then 52 else 61 := by
    show CairoAir.traceColumns (CairoAir.hasRcBuiltin pi') = _
    obtain ⟨-, -, -, -, -, -, -, -, -, hms⟩ := ExecTrace.fromRegsAndMem_regs hpi
    have hpims : pi'.memorySegments = segs := by rw [hpi']; exact hms
    unfold CairoAir.hasRcBuiltin
    rw [hpims]
    cases segs with
    | nil => rfl
    | cons x t => rfl
  have hnc : aux.nCols = 18 := by
    simp only [CairoAir.air, Outcome.bind_eq_ok, Outcome.pure_eq, Outcome.ok.injEq] at haux
    obtain ⟨auxRows, -, rfl⟩ := haux
    rfl
  rw [hcols, hnc] at hshape
  exact ⟨ha, hshape⟩

/-- **C62** for Cairo: the proof of a run whose trace has `2^a` rows, with blowup `2^b`: the number of bytes,
from the number of rows and the options alone. -/
theorem C62_cairo_proof_size {env : Env FE T} {mem : CairoMemory} {m : FE → FE}
    {states : List RegistersState} (run : HonestRun mem m states) {size : Nat} {segs : MemorySegmentMap}
    {pi pi' : PublicInputs} (hpi : ExecTrace.fromRegsAndMem states mem size segs = .ok pi) (hsize : size < 2 ^ 64)
    (hzero : mem.get? 0 = none) (hpc : ∃ t ∈ states, t.pc ≤ size)
    (hsegs : segs = [] ∨ ∃ r, segs.get? .rangeCheck = some r) (hb : BuiltinValues mem segs)
    (hout : OutputAfterProgram size segs) (hcov : OutputCovered m states size segs)
    {main : List (List FE)} (hmain : ExecTrace.buildMainTrace states mem pi = .ok (main, pi'))
    {options : ProofOptions} {a b : Nat} (hlen : main.length = 2 ^ a) (hb1 : 1 ≤ b)
    (hbl : options.blowupFactor.toNat = 2 ^ b)
    (hsq : ¬ IsSquare (options.cosetOffset : FE)) {proof : StarkProof FE}
    (hproof : CairoAir.generateCairoProof env ⟨main.flatten, (main.headD []).length⟩ pi' options = .ok proof) :
    ∃ bs, proof.serialize = .ok bs ∧
      bs.length = proofBytes a b (if segs = [] then 52 else 61) 2 2 options.friNumberOfQueries := by
  obtain ⟨ha, hshape⟩ :=
    C62_cairo_proof_shape run hpi hsize hzero hpc hsegs hb hout hcov hmain hlen hb1 hbl hsq hproof
  exact C62_proof_size ha hshape

/-- The proof of the run of `simple_program` (8 rows, blowup 4, the options of the command line). -/
example : ∃ proof bs,
    CairoAir.generateCairoProof Examples.envFar
      ⟨Examples.main0.1.flatten, (Examples.main0.1.headD []).length⟩
      Examples.main0.2 ProofOptions.defaultTestOptions = .ok proof ∧
    proof.serialize = .ok bs ∧ bs.length = 13664 := by
  obtain ⟨proof, h, -⟩ := example_cairo_proof
  have hmain : ExecTrace.buildMainTrace Examples.states Examples.mem Examples.pi0
      = .ok (Examples.main0.1, Examples.main0.2) := by
    rw [Examples.main0_eq, Prod.mk.eta]
  obtain ⟨bs, h1, h2⟩ := C62_cairo_proof_size (a := 3) (b := 2) example_run Examples.pi0_eq (by norm_num)
    (by decide +kernel) ⟨⟨1, 8, 8⟩, by decide, by decide⟩ (.inl rfl) (by intro s e h; cases h)
    (by intro s e h; cases h) (ExecTrace.covered_of_no_output rfl) hmain Examples.main0_length (by norm_num)
    (by decide) (by exact_mod_cast three_not_square) h
  exact ⟨proof, bs, h, h1, h2.trans (by decide +kernel)⟩

end Verif.Props
