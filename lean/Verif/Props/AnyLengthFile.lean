import Verif.Props.AnyLength
import Verif.Props.Cli

/-!
# C97 for files: the row counts that the command `verify` accepts
-/

namespace Verif.Props
open Verif.Spec CairoAir Runner Cli
variable {T : Type} {env : Env FE T}

/-- **C97** refuted for files: for every claimed run with distinct keys, a step and bounds for the range check there is a
file that claims `m * 2^a` rows and that the command `verify` accepts, for every `m` that has no common divisor with
the order of the multiplicative group of the field. -/
theorem C97_cairo_file (hta : env.ta = starkRoots) (pi : PublicInputs) (hwf : pi.WF)
    (hpm : pi.publicMemory.length < 2 ^ 57) (hsteps : pi.numSteps ≠ 0)
    (hmin : pi.rangeCheckMin ≠ none) (hmax : pi.rangeCheckMax ≠ none) {a m : Nat} (ha : 1 ≤ a)
    (hcop : Nat.Coprime m (P - 1)) (hsize : m * 2 ^ a * 4 < 2 ^ 64)
    {root : Commitment} (hmem : ∀ e ∈ pi.publicMemory,
      (challengesAfter env (air (m * 2 ^ a) pi ProofOptions.defaultTestOptions) root).zMemory
        ≠ e.1 + (challengesAfter env (air (m * 2 ^ a) pi ProofOptions.defaultTestOptions) root).alphaMemory * e.2)
    (hz : SamplingEnds env (air (m * 2 ^ a) pi ProofOptions.defaultTestOptions))
    (hgrind : ∀ challenge, Grinding.generateNonce env.keccak challenge 1 ≠ none) :
    ∃ file proof, readProofFile file = .ok (proof, pi) ∧ proof.traceLength = m * 2 ^ a ∧
      ∀ (vm : Vm) (w : World) (name path : String) (rest : List String), w.read path = some file →
        Cli.main env vm w (name :: "verify" :: path :: rest) = .ok (.verdict true) := by
  have hodd := odd_of_coprime hcop
  have ha64 := exponent_lt hodd hsize
  have hcols : traceColumns (hasRcBuiltin pi) ≤ 61 := by cases hasRcBuiltin pi <;> decide
  obtain ⟨even, nonce, hnonce, hv⟩ := forgery_accepted_long (env := env) (new := CairoAir.new) (pi := pi)
    (air := air (m * 2 ^ a) pi ProofOptions.defaultTestOptions) (b := 2) ha hodd rfl rfl
    (by show ((3 : Nat) : FE) ≠ 0; exact_mod_cast three_ne_zero_FE) (air_fits (two_le_rows ha hodd) _ _)
    (by rw [pow_add, ← mul_assoc]; exact hsize) (by rw [hta]; show _ ≤ 192; omega) (root_eq_one hcop)
    (fun w z hw i => square_notMem' (by omega) hw three_not_square (by rw [hta]; show _ < 192; omega) z i) rfl rfl
    (fun ch => ⟨_, air_polynomial _ _ _ ch⟩) root root (by
      obtain ⟨cs, hcs⟩ := boundary_exists pi hsteps hmin hmax (n := m * 2 ^ a)
        (by have := two_le_rows ha hodd; omega) _ hmem
      exact ⟨cs, hcs, boundary_columns hcs⟩) hz hgrind
    (rows := List.replicate 2 (List.replicate (traceColumns (hasRcBuiltin pi)) 0)) rfl
    (fun r hr => by rw [(List.mem_replicate.mp hr).2, List.length_replicate]; rfl) 0 0 le_rfl
  obtain ⟨bs, hbs, hlen⟩ := forgery_bytes (m * 2 ^ a) root root
    ⟨(List.replicate 2 (List.replicate (traceColumns (hasRcBuiltin pi)) 0)).flatten,
      (air (m * 2 ^ a) pi ProofOptions.defaultTestOptions).context.traceColumns⟩ even 0 0
    ProofOptions.defaultTestOptions.friNumberOfQueries nonce
  have hdata : (List.replicate 2 (List.replicate (traceColumns (hasRcBuiltin pi)) (0 : FE))).flatten.length
      ≤ 122 := by
    simp only [List.length_flatten, List.map_replicate, List.length_replicate, List.sum_replicate, smul_eq_mul]
    omega
  have hcw : (air (m * 2 ^ a) pi ProofOptions.defaultTestOptions).context.traceColumns < 2 ^ 64 := by
    show traceColumns (hasRcBuiltin pi) < _
    omega
  have hpil := publicInputs_length pi
  have hsl := segments_le hwf.segs_wf
  have hq : ProofOptions.defaultTestOptions.friNumberOfQueries = 3 := rfl
  rw [hq] at hlen
  simp only at hlen
  generalize hp : forgery (m * 2 ^ a) _ _ _ even 0 0 _ nonce = proof at hbs
  have hsized : MachineSized proof := by
    subst hp
    exact ⟨by show m * 2 ^ a < _; omega, hnonce, hcw⟩
  have hread := C08_proof_file_roundtrip proof pi hsized hwf (beBytes 8 bs.length ++ bs ++ pi.serialize) (by
      unfold writeProofFile
      rw [hbs]
      rfl) (by
      simp only [List.length_append, length_beBytes, hlen]
      omega)
  replace hv : verifyCairoProof env proof pi ProofOptions.defaultTestOptions = .ok true := by
    rw [← hp]
    exact hv
  exact ⟨_, _, hread, by rw [← hp]; rfl,
    fun vm w name path rest hr => C61_accepted_files_partial.2 ⟨_, _, _, hr, hread, hv⟩⟩

open Verif.Examples in
/-- The hypotheses are met: a file for the false statement that claims six rows. -/
example : ∃ file proof, readProofFile file = .ok (proof, falseStatement) ∧ proof.traceLength = 6 ∧
    ∀ (vm : Vm) (w : World) (name path : String) (rest : List String), w.read path = some file →
      Cli.main envStark vm w (name :: "verify" :: path :: rest) = .ok (.verdict true) :=
  C97_cairo_file (env := envStark) rfl falseStatement
    ⟨List.nodup_nil, by simp [falseStatement], List.nodup_nil, by decide⟩ (by decide) (by decide) (by decide) (by decide)
    (a := 1) (m := 3) le_rfl (by rw [P_eq]; norm_num) (by norm_num) (root := digest 0) (fun e he => by cases he)
    sampling_six generateNonce_stark

end Verif.Props
