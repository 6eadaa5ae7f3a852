import Verif.Lemmas.Truncated
import Verif.Props.Format
import Verif.Props.Commands

/-!
# C07, C61: what `verify` does with a file that is not complete
-/

namespace Verif.Props
open Verif.Spec CairoAir Runner Cli
variable {T : Type} {env : Env FE T}

/-- **C07**, for files that are not complete: of a file written by `prove`, with both bounds of the range check, every
part that is not the whole file is refused, except for the four parts that end inside the bounds, on which reading panics.
Missing: that these are refused too. -/
theorem C07_incomplete_files_partial {proof : StarkProof FE} {pi : PublicInputs} (hp : MachineSized proof) (hpi : pi.WF)
    {lo hi : UInt16} (hlo : pi.rangeCheckMin = some lo) (hhi : pi.rangeCheckMax = some hi) {bytes file : Bytes}
    (hb : proof.serialize = .ok bytes) (hf : writeProofFile proof pi = .ok file) (hl : file.length < 2 ^ 64) {n : Nat}
    (hn : n < file.length) :
    readProofFile (file.take n) =
      if n ∈ [bytes.length + 177, bytes.length + 178, bytes.length + 180, bytes.length + 181] then .panic else .err () := by
  unfold writeProofFile at hf
  rw [hb] at hf
  simp only [Outcome.bind_ok, Outcome.pure_eq, Outcome.ok.injEq] at hf
  subst hf
  have hlb : bytes.length < 2 ^ 64 := by simp at hl; omega
  have hls : pi.serialize.length < 2 ^ 64 := by simp at hl; omega
  have hn8 : beNat (beBytes 8 bytes.length) = bytes.length := beNat_beBytes 8 _ (by simpa using hlb)
  by_cases hshort : n < 8 + bytes.length
  · rw [if_neg (by simp; omega)]
    apply C08_short_file_rejected
    by_cases h8 : n < 8
    · left; rw [List.length_take]; omega
    · right
      rw [List.take_take, min_eq_left (by omega), List.append_assoc, List.take_left' (length_beBytes 8 _), hn8,
        List.length_take]
      omega
  · obtain ⟨k, rfl⟩ : ∃ k, n = (beBytes 8 bytes.length ++ bytes).length + k :=
      ⟨n - (8 + bytes.length), by simp; omega⟩
    have hk : k < pi.serialize.length := by simp at hn; omega
    rw [List.take_length_add_append]
    have hread : readProofFile (beBytes 8 bytes.length ++ bytes ++ pi.serialize.take k) =
        match PublicInputs.deserialize (pi.serialize.take k) with
        | .panic => .panic
        | .err _ => .err ()
        | .ok inputs => .ok (proof, inputs) := by
      unfold readProofFile
      rw [if_neg (by simp)]
      simp [hn8, C01_proof_roundtrip _ hp bytes hb hlb]
      rfl
    rw [hread]
    have hiff := inputs_take_panic pi hlo hhi k
    cases hd : PublicInputs.deserialize (pi.serialize.take k) with
    | ok q => exact absurd hd (inputs_take pi hpi hls hk q)
    | panic =>
      have := hiff.mp hd
      rw [if_pos (by simp; omega)]
    | err e =>
      have : ¬ (k = 169 ∨ k = 170 ∨ k = 172 ∨ k = 173) := fun h => by
        rw [hiff.mpr h] at hd
        cases hd
      rw [if_neg (by simp; omega)]

/-- **C61**, for files that are not complete: of a file written by `prove`, with both bounds of the range check, `verify`
reports every part that is not the whole file as one that cannot be read, except for the four parts that end inside the
bounds, on which it panics. It gives a verdict for none of them. -/
theorem C61_incomplete_files_partial {proof : StarkProof FE} {pi : PublicInputs} (hp : MachineSized proof) (hpi : pi.WF)
    {lo hi : UInt16} (hlo : pi.rangeCheckMin = some lo) (hhi : pi.rangeCheckMax = some hi) {bytes file : Bytes}
    (hb : proof.serialize = .ok bytes) (hf : writeProofFile proof pi = .ok file) (hl : file.length < 2 ^ 64) {n : Nat}
    (hn : n < file.length) (vm : Vm) (w : World) (name path : String) (rest : List String)
    (hr : w.read path = some (file.take n)) :
    Cli.main env vm w (name :: "verify" :: path :: rest) =
      if n ∈ [bytes.length + 177, bytes.length + 178, bytes.length + 180, bytes.length + 181] then .panic
      else .ok .notRead := by
  have h := C07_incomplete_files_partial hp hpi hlo hhi hb hf hl hn
  have hends := ((C61_verify_ends (env := env) vm w name).2 path rest).2 _ hr
  split at h
  · rename_i hm
    rw [if_pos hm]
    exact hends.2.1 h
  · rename_i hm
    rw [if_neg hm]
    exact hends.1 _ h

/-- A part of a sample file on which reading panics, and one that is refused. -/
example : ∃ (file : Bytes) (m n : Nat), m < file.length ∧ n < file.length ∧ readProofFile (file.take m) = .panic ∧
    readProofFile (file.take n) = .err () := by
  obtain ⟨bytes, file, hb, hf, hl, hn⟩ : ∃ bytes file, sampleProof.serialize = .ok bytes ∧
      writeProofFile sampleProof { sampleInputs with rangeCheckMin := some 0, rangeCheckMax := some 9 } = .ok file ∧
      file.length < 2 ^ 64 ∧ bytes.length + 181 < file.length :=
    ⟨_, _, rfl, rfl, by decide +kernel, by decide +kernel⟩
  have hwf : ({ sampleInputs with rangeCheckMin := some 0, rangeCheckMax := some 9 } : PublicInputs).WF :=
    ⟨sampleInputs_wf.1, sampleInputs_wf.2, sampleInputs_wf.3, sampleInputs_wf.4⟩
  have key := fun n hn => C07_incomplete_files_partial (n := n) sampleProof_sized hwf rfl rfl hb hf hl hn
  exact ⟨file, bytes.length + 181, bytes.length + 179, hn, by omega, by simpa using key _ hn,
    by simpa using key (bytes.length + 179) (by omega)⟩

end Verif.Props
