import Verif.Lemmas.TraceOpenings
import Verif.Lemmas.Shape
import Verif.Lemmas.AuxTrace
import Verif.Props.Stark
import Verif.Props.Shape
import Verif.Spec.Extracted

/-!
# C93: the openings of the trace in the proofs of the prover are right
-/

namespace Verif.Props
open Verif.Spec Polynomial TraceTable

variable {F T Ch : Type} [Field F] [DecidableEq F] {env : Env F T}

/-- **C93.** Whatever the trace is (it need not satisfy the AIR): if the prover makes a proof, then for every query the path
for each trace leads from the opened row to the root in the proof. The row of the main trace is the first part of the
values, the row of the auxiliary trace the rest. So the check that the verifier leaves out (`C48_trace_paths_ignored`)
would not reject any of these proofs. -/
theorem C93_trace_opened {PI : Type} {new : AirNew F Ch PI} {pi : PI} {options : ProofOptions} {air : Air F Ch} {a b : Nat}
    (ha : 1 ≤ a) (hlen : air.traceLength = 2 ^ a) (hblow : air.context.proofOptions.blowupFactor.toNat = 2 ^ b)
    (hnew : new (2 ^ a) pi options = .ok air) {rows : List (List F)} {k : Nat} (hk : 0 < k) (hrows : rows.length = 2 ^ a)
    (hr : ∀ r ∈ rows, r.length = k)
    (haux : ∀ ch aux, air.buildAuxiliaryTrace (ofRows rows k) ch = .ok aux → 0 < aux.nCols →
      ∃ auxRows, aux = ofRows auxRows aux.nCols ∧ auxRows.length = 2 ^ a ∧ ∀ r ∈ auxRows, r.length = aux.nCols)
    {proof : StarkProof F} (hproof : prove env new (ofRows rows k) pi options = .ok proof) :
    ∃ d c t, Domain.new env.ta air = .ok d ∧ step1 env air proof d env.tr.init = .ok (c, t) ∧
      proof.deepPolyOpenings.length = c.iotas.length ∧
      (∃ aux, air.buildAuxiliaryTrace (ofRows rows k) c.rapChallenges = .ok aux ∧
        proof.ldeTraceMerkleRoots.length = if aux.nCols = 0 then 1 else 2) ∧
      ∀ (i iota : Nat) (o : DeepPolynomialOpenings F), c.iotas[i]? = some iota → proof.deepPolyOpenings[i]? = some o →
        o.ldeTraceMerkleProofs.length = proof.ldeTraceMerkleRoots.length ∧
        (∃ path root, o.ldeTraceMerkleProofs[0]? = some path ∧ proof.ldeTraceMerkleRoots[0]? = some root ∧
          Merkle.verify env.hashes.leafBatch env.hashes.node path root iota (o.ldeTraceEvaluations.take k) = true) ∧
        ∀ path root, o.ldeTraceMerkleProofs[1]? = some path → proof.ldeTraceMerkleRoots[1]? = some root →
          Merkle.verify env.hashes.leafBatch env.hashes.node path root iota (o.ldeTraceEvaluations.drop k) = true := by
  have hnr : (ofRows rows k).nRows = 2 ^ a := by rw [nRows_ofRows _ _ hk hr, hrows]
  obtain ⟨d, c, t, r1, r2, deep, layers, ps, hd, hstep, U⟩ :=
    C49_same_challenges (by rw [hnr]; exact hnew) ha hlen hblow hproof
  obtain ⟨g, w, D⟩ := domain_new ha hlen hblow hd
  obtain ⟨tf, hfirst⟩ := U.first
  obtain ⟨-, -, -, -, -, hlt⟩ := step1_inv hstep
  rw [D.ldeRootOrder] at hlt
  obtain ⟨polys, tree, hpl, htree, hlde, hnum, hor⟩ := round1_commitments D hk hrows hr hfirst (haux _)
  refine ⟨d, c, t, hd, hstep, (mapOutcome_mem U.openings).1, ?_, fun i iota o hi ho => ?_⟩
  · rw [U.traceRoots, ← U.rap]
    exact hnum
  have hiota := hlt iota (List.mem_of_getElem? hi)
  obtain ⟨o', ho', hopen⟩ := mapOutcome_getElem? U.openings hi
  obtain rfl : o' = o := Option.some.inj (ho'.symm.trans ho)
  obtain ⟨hpaths, hvalues⟩ := openDeepAt_inv D hlde hiota hopen
  rw [U.traceRoots]
  rcases hor with ⟨h1, h2, h3⟩ | ⟨polys', tree', htree', h1, h2, h3⟩
  · rw [h2] at hpaths
    rw [h3, hvalues, h1]
    obtain ⟨path, hp1, hp2⟩ := mapOutcome_getElem? hpaths (i := 0) rfl
    refine ⟨(mapOutcome_mem hpaths).1, ⟨path, _, hp1, rfl, ?_⟩, fun _ _ _ hroot => by simp at hroot⟩
    rw [List.take_of_length_le (by rw [List.length_map, hpl])]
    exact path_of_rows htree hiota hp2
  · rw [h2] at hpaths
    rw [h3, hvalues, h1, List.map_append, List.take_left' (by rw [List.length_map, hpl]),
      List.drop_left' (by rw [List.length_map, hpl])]
    obtain ⟨path, hp1, hp2⟩ := mapOutcome_getElem? hpaths (i := 0) rfl
    obtain ⟨path', hp1', hp2'⟩ := mapOutcome_getElem? hpaths (i := 1) rfl
    refine ⟨(mapOutcome_mem hpaths).1, ⟨path, _, hp1, rfl, path_of_rows htree hiota hp2⟩, fun p root hp hroot => ?_⟩
    obtain rfl : path' = p := Option.some.inj (hp1'.symm.trans hp)
    obtain rfl : tree'.root = root := Option.some.inj hroot
    exact path_of_rows htree' hiota hp2'

/-- **C93**, the Cairo AIR: the main trace has any number of columns, the auxiliary one has 18 and there are two roots. -/
theorem C93_cairo {T : Type} {env : Env FE T} {pi : PublicInputs} {options : ProofOptions} {a b : Nat} (ha : 1 ≤ a)
    (hblow : options.blowupFactor.toNat = 2 ^ b) {rows : List (List FE)} {k : Nat} (hk : 0 < k) (hrows : rows.length = 2 ^ a)
    (hr : ∀ r ∈ rows, r.length = k) {proof : StarkProof FE}
    (hproof : CairoAir.generateCairoProof env (ofRows rows k) pi options = .ok proof) :
    ∃ d c t, Domain.new env.ta (CairoAir.air (2 ^ a) pi options) = .ok d ∧
      step1 env (CairoAir.air (2 ^ a) pi options) proof d env.tr.init = .ok (c, t) ∧
      proof.deepPolyOpenings.length = c.iotas.length ∧
      ∀ (i iota : Nat) (o : DeepPolynomialOpenings FE), c.iotas[i]? = some iota → proof.deepPolyOpenings[i]? = some o →
        ∃ path path' root root', o.ldeTraceMerkleProofs = [path, path'] ∧ proof.ldeTraceMerkleRoots = [root, root'] ∧
          Merkle.verify env.hashes.leafBatch env.hashes.node path root iota (o.ldeTraceEvaluations.take k) = true ∧
          Merkle.verify env.hashes.leafBatch env.hashes.node path' root' iota (o.ldeTraceEvaluations.drop k) = true := by
  obtain ⟨d, c, t, hd, hs, hlen, ⟨aux, haux, hnum⟩, h⟩ := C93_trace_opened ha (air := CairoAir.air (2 ^ a) pi options)
    (new := CairoAir.new) rfl hblow rfl hk hrows hr (by
      intro ch aux haux _
      simp only [CairoAir.air, Outcome.bind_eq_ok, Outcome.pure_eq, Outcome.ok.injEq] at haux
      obtain ⟨auxRows, haux, rfl⟩ := haux
      rw [tableRows_ofRows hk hr] at haux
      obtain ⟨_, _, _, _, _, A⟩ := ExecTrace.buildAuxiliaryTrace_ok haux
      exact ⟨auxRows, rfl, A.len.trans hrows, A.width⟩) hproof
  have hnc : aux.nCols = 18 := by
    simp only [CairoAir.air, Outcome.bind_eq_ok, Outcome.pure_eq, Outcome.ok.injEq] at haux
    obtain ⟨auxRows, -, rfl⟩ := haux
    rfl
  rw [hnc, if_neg (by norm_num)] at hnum
  refine ⟨d, c, t, hd, hs, hlen, fun i iota o hi ho => ?_⟩
  obtain ⟨h1, ⟨path, root, h2, h3, h4⟩, h5⟩ := h i iota o hi ho
  rw [hnum] at h1
  obtain ⟨p0, p1, hp⟩ := List.length_eq_two.mp h1
  obtain ⟨r0, r1, hroots⟩ := List.length_eq_two.mp hnum
  rw [hp] at h2 h5
  rw [hroots] at h3 h5
  obtain rfl := Option.some.inj h2
  obtain rfl := Option.some.inj h3
  exact ⟨_, _, _, _, hp, hroots, h4, h5 _ _ rfl rfl⟩

/-- The proof of the run of `simple_program` (8 rows of 34 columns, blowup 4): every query is opened in two trees. -/
example : ∃ proof d c t, CairoAir.generateCairoProof Examples.envFar (ofRows Examples.main0.1 34) Examples.main0.2
      ProofOptions.defaultTestOptions = .ok proof ∧
    Domain.new Examples.envFar.ta (CairoAir.air (2 ^ 3) Examples.main0.2 ProofOptions.defaultTestOptions) = .ok d ∧
    step1 Examples.envFar (CairoAir.air (2 ^ 3) Examples.main0.2 ProofOptions.defaultTestOptions) proof d
      Examples.envFar.tr.init = .ok (c, t) ∧
    ∀ (i iota : Nat) (o : DeepPolynomialOpenings FE), c.iotas[i]? = some iota → proof.deepPolyOpenings[i]? = some o →
      o.ldeTraceMerkleProofs.length = 2 := by
  obtain ⟨proof, h, -⟩ := example_cairo_proof
  have hmain : ExecTrace.buildMainTrace Examples.states Examples.mem Examples.pi0
      = .ok (Examples.main0.1, Examples.main0.2) := by
    rw [Examples.main0_eq, Prod.mk.eta]
  obtain ⟨-, hw, hhd, -⟩ := main_shape hmain
  have h34 : ExecTrace.mainWidth Examples.pi0 = 34 := by decide +kernel
  rw [h34] at hw hhd
  rw [hhd] at h
  obtain ⟨d, c, t, hd, hs, -, hall⟩ := C93_cairo (a := 3) (b := 2) (by norm_num) (by decide) (k := 34) (by norm_num)
    Examples.main0_length hw h
  refine ⟨proof, d, c, t, h, hd, hs, fun i iota o hi ho => ?_⟩
  obtain ⟨_, _, _, _, hp, -⟩ := hall i iota o hi ho
  rw [hp]
  rfl

/-- **C93**, in the words of C92: the openings of the proof are the right ones that C92 asks for. -/
theorem C93_as_assumed {PI : Type} {Ch T : Type} {env : Env FE T} {new : AirNew FE Ch PI} {pi : PI} {options : ProofOptions}
    {air : Air FE Ch} {a b : Nat}
    (ha : 1 ≤ a) (hlen : air.traceLength = 2 ^ a) (hblow : air.context.proofOptions.blowupFactor.toNat = 2 ^ b)
    (hnew : new (2 ^ a) pi options = .ok air) {rows : List (List FE)} {k : Nat} (hk : 0 < k) (hrows : rows.length = 2 ^ a)
    (hr : ∀ r ∈ rows, r.length = k)
    (haux : ∀ ch aux, air.buildAuxiliaryTrace (ofRows rows k) ch = .ok aux → 0 < aux.nCols →
      ∃ auxRows, aux = ofRows auxRows aux.nCols ∧ auxRows.length = 2 ^ a ∧ ∀ r ∈ auxRows, r.length = aux.nCols)
    {proof : StarkProof FE} (hproof : prove env new (ofRows rows k) pi options = .ok proof) :
    ∃ d c t, Domain.new env.ta air = .ok d ∧ step1 env air proof d env.tr.init = .ok (c, t) ∧
      TraceOpened env.hashes k proof c.iotas := by
  obtain ⟨d, c, t, hd, hs, -, -, h⟩ := C93_trace_opened ha hlen hblow hnew hk hrows hr haux hproof
  refine ⟨d, c, t, hd, hs, ?_⟩
  intro i iota path values root hi spot hspot hopen hroot
  rcases hspot with rfl | rfl
  · cases ho : proof.deepPolyOpenings[i]? with
    | none => simp [Spot.opening, ho] at hopen
    | some o =>
      obtain ⟨-, ⟨path', root', h1, h2, h3⟩, -⟩ := h i iota o hi ho
      obtain rfl := Option.some.inj (h2.symm.trans hroot)
      simp only [Spot.opening, ho, h1, Option.bind_eq_bind, Option.bind_some, Option.pure_def, Option.some.injEq,
        Prod.mk.injEq] at hopen
      obtain ⟨rfl, rfl⟩ := hopen
      exact h3
  · cases ho : proof.deepPolyOpenings[i]? with
    | none => simp [Spot.opening, ho] at hopen
    | some o =>
      obtain ⟨-, -, h'⟩ := h i iota o hi ho
      cases hp : o.ldeTraceMerkleProofs[1]? with
      | none => simp [Spot.opening, ho, hp] at hopen
      | some path' =>
        simp only [Spot.opening, ho, hp, Option.bind_eq_bind, Option.bind_some, Option.pure_def, Option.some.injEq,
          Prod.mk.injEq] at hopen
        obtain ⟨rfl, rfl⟩ := hopen
        exact h' _ _ hp hroot

end Verif.Props
