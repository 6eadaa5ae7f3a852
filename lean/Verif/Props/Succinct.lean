import Verif.Props.Cli
import Verif.Examples.WideEnv

/-!
# C76: what the verifier computes
-/

namespace Verif.Props
open Polynomial Verif.Spec CairoAir Runner Cli
variable {F T Ch : Type} [Field F] [DecidableEq F] {env : Env F T}

/-- **C76** refuted: whenever the verifier answers on a proof with enough queries, it has listed the trace domain and
the extended domain of the length that the proof claims. -/
theorem C76_domain_listed {PI : Type} {new : AirNew F Ch PI} {pi : PI} {options : ProofOptions}
    {proof : StarkProof F} {air : Air F Ch} (hair : new proof.traceLength pi options = .ok air)
    {a b : Nat} (S : Setting air a b) (hq : options.friNumberOfQueries ≤ proof.queryList.length) {r : Bool}
    (h : verify env new proof pi options = .ok r) :
    ∃ d, Domain.new env.ta air = .ok d ∧ d.traceRootsOfUnity.length = air.traceLength ∧
      d.ldeRootsOfUnityCoset.length = air.traceLength * air.context.proofOptions.blowupFactor.toNat := by
  unfold verify at h
  rw [if_neg (by omega)] at h
  simp only [Outcome.bind_eq_ok, hair, Outcome.ok.injEq, exists_eq_left'] at h
  obtain ⟨d, hd, -⟩ := h
  obtain ⟨g, w, D⟩ := domain_new S.rows S.length S.blowup hd
  refine ⟨d, hd, ?_, ?_⟩
  · rw [D.traceRoots, S.length]
    simp
  · rw [D.lde_length, S.length, S.blowup, pow_add]

/-- **C76** refuted: for every number of rows there is a file of at most 4100 bytes that `verify` accepts, and for
which the verifier lists an extended domain of four times that number of elements. -/
theorem C76_small_file {T : Type} (env : Env FE T) (a : Nat) (ha : 1 ≤ a) (hab : a + 2 < 64)
    (hta : env.ta = starkRoots)
    (hz : SamplingEnds env (air (2 ^ a) falseStatement ProofOptions.defaultTestOptions))
    (hgrind : ∀ challenge, Grinding.generateNonce env.keccak challenge 1 ≠ none) :
    ∃ file proof pi d, file.length ≤ 4100 ∧ readProofFile file = .ok (proof, pi) ∧
      (∀ (vm : Vm) (w : World) (name path : String) (rest : List String), w.read path = some file →
        Cli.main env vm w (name :: "verify" :: path :: rest) = .ok (.verdict true)) ∧
      Domain.new env.ta (air proof.traceLength pi ProofOptions.defaultTestOptions) = .ok d ∧
      d.ldeRootsOfUnityCoset.length = 2 ^ (a + 2) := by
  obtain ⟨file, proof, hread, hlen, hq, hfile, hv⟩ := forged_file (env := env) falseStatement
    ⟨List.nodup_nil, by simp [falseStatement], List.nodup_nil, by decide⟩ (by decide) (by decide) (by decide)
    (by decide) ha hab (by rw [hta]; show _ < 192; omega) (root := zeroRoot) (fun e he => by cases he) hz hgrind
  have S := cairo_setting ha falseStatement
  obtain ⟨d, hd, -, hl⟩ := C76_domain_listed (env := env) (new := CairoAir.new) (pi := falseStatement) (by rw [hlen]; rfl) S
    (by rw [hq]; exact le_rfl) hv
  refine ⟨file, proof, falseStatement, d, ?_, hread,
    fun vm w name path rest hr => C61_accepted_files_partial.2 ⟨_, _, _, hr, hread, hv⟩, by rw [hlen]; exact hd, ?_⟩
  · have h1 := publicInputs_length falseStatement
    rw [hfile, show traceColumns (hasRcBuiltin falseStatement) = 52 by decide]
    have h2 : falseStatement.memorySegments.length = 0 := rfl
    have h3 : falseStatement.publicMemory.length = 0 := rfl
    omega
  · rw [hl, S.length, S.blowup, pow_add]

/-- The hypotheses of `C76_small_file`, and through it of `C76_domain_listed`, are met for every number of rows: with
2^61 rows the list has 2^63 field elements. -/
example : ∃ file proof pi d, file.length ≤ 4100 ∧ readProofFile file = .ok (proof, pi) ∧
    (∀ (vm : Vm) (w : World) (name path : String) (rest : List String), w.read path = some file →
      Cli.main Verif.Examples.envWide vm w (name :: "verify" :: path :: rest) = .ok (.verdict true)) ∧
    Domain.new Verif.Examples.envWide.ta (air proof.traceLength pi ProofOptions.defaultTestOptions) = .ok d ∧
    d.ldeRootsOfUnityCoset.length = 2 ^ 63 :=
  C76_small_file Verif.Examples.envWide 61 (by norm_num) (by norm_num) rfl
    (samplingEnds_of (cairo_setting (by norm_num) _) fun lde trace t h1 h2 => Verif.Examples.sampleZOodWide lde trace t (by rw [h1, h2, P_eq]; norm_num))
    Verif.Examples.generateNonce_stark

omit [DecidableEq F] in
/-- **C76** in part: the lists are not needed. Everything the verifier asks of them is answered by a power: whether a
point is on one of the domains, which point has a given index, and which is the last point of the trace domain. -/
theorem C76_powers_suffice_partial {ta : TwoAdic F} {air : Air F Ch} {a b : Nat} (S : Setting air a b) {d : Domain F}
    (hd : Domain.new ta air = .ok d) :
    ∃ g w, ta.root a = some g ∧ ta.root (a + b) = some w ∧
      (∀ v, v ∈ d.traceRootsOfUnity ↔ v ^ 2 ^ a = 1) ∧
      (∀ v, v ∈ d.ldeRootsOfUnityCoset ↔ v ^ 2 ^ (a + b) = (air.context.proofOptions.cosetOffset : F) ^ 2 ^ (a + b)) ∧
      (∀ i, i < 2 ^ (a + b) →
        d.ldeRootsOfUnityCoset[i]? = some (w ^ i * (air.context.proofOptions.cosetOffset : F))) ∧
      d.traceRootsOfUnity.getLast? = some g⁻¹ := by
  obtain ⟨g, w, D⟩ := domain_new S.rows S.length S.blowup hd
  refine ⟨g, w, D.hg, D.hw, fun v => ?_, fun v => ?_, fun i hi => D.lde_getElem? hi, ?_⟩
  · rw [← not_iff_not]
    exact D.notMem_trace_iff v
  · rw [D.lde, List.mem_map]
    constructor
    · rintro ⟨i, -, rfl⟩
      rw [mul_pow, ← pow_mul, Nat.mul_comm, pow_mul, D.w_primitive.pow_eq_one, one_pow, one_mul]
    · intro hv
      have : NeZero (2 ^ (a + b)) := ⟨by positivity⟩
      obtain ⟨i, hi, hw⟩ := D.w_primitive.eq_pow_of_pow_eq_one
        (ξ := v / (air.context.proofOptions.cosetOffset : F)) (by rw [div_pow, hv, div_self (pow_ne_zero _ S.offset)])
      exact ⟨i, List.mem_range.mpr hi, by rw [hw, div_mul_cancel₀ _ S.offset]⟩
  · rw [D.traceRoots, List.getLast?_map, List.getLast?_range, if_neg (by positivity)]
    refine congrArg some (eq_inv_of_mul_eq_one_left ?_)
    rw [← pow_succ, Nat.sub_add_cancel Nat.one_le_two_pow, D.g_primitive.pow_eq_one]

/-- The hypotheses are met by the domain of a trace with four rows. -/
example : ∃ d, Domain.new Verif.Examples.env17.ta air17 = .ok d ∧
    ∀ v, v ∈ d.traceRootsOfUnity ↔ v ^ 2 ^ 2 = 1 := by
  obtain ⟨d, hd⟩ := domain_exists (ta := Verif.Examples.env17.ta) setting17.rows setting17.length setting17.blowup
    (by norm_num) (by decide)
  obtain ⟨-, -, -, -, h, -⟩ := C76_powers_suffice_partial setting17 hd
  exact ⟨d, hd, h⟩

end Verif.Props
