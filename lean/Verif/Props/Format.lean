import Verif.Lemmas.Format
import Verif.Props.Codec
import Verif.Props.Cli
import Verif.Props.Commands

/-!
# C06, C07, C08, C09, C55, C61: exactly which byte strings are read as which values
-/

namespace Verif.Props
open Verif.Spec CairoAir Runner Cli

/-- **C09**, what holds: the encodings of a proof are exactly the strings of the format `Format.Proof`. -/
theorem C09_encodings_exactly_partial (bs : Bytes) (p : StarkProof FE) :
    StarkProof.deserialize bs = .ok p ↔ Format.Proof p bs := proof_decodes bs p

/-- **C09**, what holds: the encodings of public inputs are exactly the strings of the format `Format.Inputs`. -/
theorem C09_input_encodings_exactly_partial (bs : Bytes) (pi : PublicInputs) :
    PublicInputs.deserialize bs = .ok pi ↔ Format.Inputs pi bs := inputs_decodes bs pi

/-- **C08**: a file is read as this proof with these public inputs exactly when it is one of the format `Format.File`. -/
theorem C08_files_exactly (file : Bytes) (p : StarkProof FE) (pi : PublicInputs) :
    readProofFile file = .ok (p, pi) ↔ Format.File p pi file := file_decodes file p pi

/-- **C06**: a string is refused exactly when it is not of the format of any proof. -/
theorem C06_errors_exactly (bs : Bytes) :
    (∃ e, StarkProof.deserialize bs = .err e) ↔ ∀ p, ¬ Format.Proof p bs := by
  simp only [← proof_decodes]
  cases h : StarkProof.deserialize bs with
  | ok p => simp
  | err e => simp
  | panic => exact absurd h (C06_parse_proof_never_panics bs).1

/-- **C07**, what holds: decoding public inputs panics exactly on those that end inside a bound of the range check. -/
theorem C07_panics_exactly_partial (bs : Bytes) : PublicInputs.deserialize bs = .panic ↔ Format.CutInputs bs :=
  inputs_panic bs

/-- **C55** for files: the command `verify` panics exactly on the files with a proof and public inputs that end inside a
bound of the range check, and on those with a proof and public inputs on which the verifier panics
(`C55_cairo_panics_exactly`). -/
theorem C55_files_panic_exactly {T : Type} {env : Env FE T} {vm : Vm} {w : World} {name path : String}
    {rest : List String} :
    Cli.main env vm w (name :: "verify" :: path :: rest) = .panic ↔
      ∃ file, w.read path = some file ∧
        ((∃ proof, Format.Parts [Format.Sized (Format.Proof proof), Format.CutInputs] file) ∨
          ∃ proof pi, Format.File proof pi file ∧
            verifyCairoProof env proof pi ProofOptions.defaultTestOptions = .panic) := by
  have hends := (C61_verify_ends (env := env) vm w name).2 path rest
  simp only [← file_panic, ← file_decodes]
  cases hr : w.read path with
  | none => simp [hends.1 hr]
  | some file =>
    simp only [Option.some.injEq, exists_eq_left']
    have h := hends.2 file hr
    cases hf : readProofFile file with
    | panic => simp [h.2.1 hf]
    | err e => simp [h.1 e hf]
    | ok x =>
      obtain ⟨proof, pi⟩ := x
      rw [(h.2.2 proof pi hf).2]
      simp

/-- **C61**, in part: `verify` reports success exactly for the files of the format `Format.File` with a proof that the
verifier accepts. -/
theorem C61_accepted_formats_partial {T : Type} {env : Env FE T} {vm : Vm} {w : World} {name path : String}
    {rest : List String} :
    Cli.main env vm w (name :: "verify" :: path :: rest) = .ok (.verdict true) ↔
      ∃ file proof pi, w.read path = some file ∧ Format.File proof pi file ∧
        verifyCairoProof env proof pi ProofOptions.defaultTestOptions = .ok true := by
  simp only [C61_accepted_files_partial, C08_files_exactly]

/-- Another form of the same width. -/
theorem felt_other {width : Nat} {x : FE} {b : Bytes} (h : Format.Felt width x b) :
    ∃ b', b' ≠ b ∧ b'.length = b.length ∧ Format.Felt width x b' := by
  obtain ⟨hl, hw, hx⟩ := h
  have hP : x.val + P < 256 ^ 32 := by
    have := ZMod.val_lt x
    have h2 : P + P ≤ 256 ^ 32 := by rw [P_eq]; norm_num
    omega
  have key : ∀ k, k < 256 ^ 32 → ((k : Nat) : FE) = x → k ≠ beNat (b.take 32) →
      ∃ b', b' ≠ b ∧ b'.length = b.length ∧ Format.Felt width x b' := by
    intro k hk hkx hne
    have ht : (beBytes 32 k ++ b.drop 32).take 32 = beBytes 32 k :=
      List.take_left' (length_beBytes 32 k)
    have hlen : (beBytes 32 k ++ b.drop 32).length = b.length := by simp; omega
    refine ⟨beBytes 32 k ++ b.drop 32, ?_, hlen, by omega, hw, ?_⟩
    · intro he
      rw [← he, ht, beNat_beBytes 32 k hk] at hne
      exact hne rfl
    · rw [ht, beNat_beBytes 32 k hk, hkx]
  by_cases he : x.val = beNat (b.take 32)
  · refine key (x.val + P) hP (by simp) ?_
    have : 0 < P := by rw [P_eq]; norm_num
    omega
  · exact key x.val (fe_val_lt x) (by simp) he

/-- **C09** refuted, without extra bytes: for every encoding of a proof there is another one of the same length. The bytes
of the last value of FRI need not be reduced. -/
theorem C09_another_of_same_length (bs : Bytes) (p : StarkProof FE) (h : StarkProof.deserialize bs = .ok p) :
    ∃ bs', bs' ≠ bs ∧ bs'.length = bs.length ∧ StarkProof.deserialize bs' = .ok p := by
  rw [proof_decodes] at h
  simp only [proof_decodes]
  obtain ⟨w, b1, _, rfl, h1, b2, _, rfl, h2, b3, _, rfl, h3, b4, _, rfl, h4, b5, _, rfl, h5, b6, _, rfl, h6,
      b7, _, rfl, h7, b8, _, rfl, h8, b9, r9, rfl, h9, hr⟩ := h
  obtain ⟨b', hne, hl, hf⟩ := felt_other h9
  refine ⟨_, ?_, ?_, w, b1, _, rfl, h1, b2, _, rfl, h2, b3, _, rfl, h3, b4, _, rfl, h4, b5, _, rfl, h5, b6, _, rfl, h6,
      b7, _, rfl, h7, b8, _, rfl, h8, b', r9, rfl, hf, hr⟩
  · intro he
    simp only [List.append_cancel_left_eq, List.append_cancel_right_eq] at he
    exact hne he
  · simp [hl]

/-- **C09** refuted for files: for every file that `verify` reads there is another one of the same length that it reads as
the same proof and public inputs, so that it does the same with both. -/
theorem C09_another_file (file : Bytes) (p : StarkProof FE) (pi : PublicInputs)
    (h : readProofFile file = .ok (p, pi)) :
    ∃ file', file' ≠ file ∧ file'.length = file.length ∧ readProofFile file' = .ok (p, pi) := by
  rw [file_decodes] at h
  simp only [file_decodes]
  obtain ⟨b, r, rfl, hp, b5, b6, rfl, ⟨w, segs, cells, hs, hc, c1, _, rfl, g1, c2, r2, rfl, g2, hr⟩, rfl⟩ := h
  obtain ⟨b', hne, hl, hf⟩ := felt_other g2
  refine ⟨_, ?_, ?_, b, _, rfl, hp, c1 ++ (b' ++ r2), [], rfl, ⟨w, segs, cells, hs, hc, c1, _, rfl, g1, b', r2, rfl, hf,
    hr⟩, rfl⟩
  · intro he
    simp only [List.append_cancel_left_eq, List.append_cancel_right_eq] at he
    exact hne he
  · simp [hl]

/-- The sample proof has an encoding, so that it is of the format, and it has another one of the same length. -/
example : ∃ bs bs', Format.Proof sampleProof bs ∧ Format.Proof sampleProof bs' ∧ bs' ≠ bs ∧ bs'.length = bs.length := by
  obtain ⟨bs, hbs, hl⟩ := sampleProof_ok
  have h := C01_proof_roundtrip _ sampleProof_sized bs hbs hl
  obtain ⟨bs', hne, hlen, h'⟩ := C09_another_of_same_length bs _ h
  exact ⟨bs, bs', (C09_encodings_exactly_partial _ _).mp h, (C09_encodings_exactly_partial _ _).mp h', hne, hlen⟩

/-- The sample file is of the format, and there is another one of the same length. -/
example : ∃ file file', Format.File sampleProof sampleInputs file ∧ Format.File sampleProof sampleInputs file' ∧
    file' ≠ file ∧ file'.length = file.length := by
  obtain ⟨bs, hbs, hl⟩ := sampleProof_ok
  have h : readProofFile (beBytes 8 bs.length ++ bs ++ sampleInputs.serialize) = .ok (sampleProof, sampleInputs) := by
    have h2 := publicInputs_roundtrip _ sampleInputs_wf sampleInputs_len []
    rw [List.append_nil] at h2
    have h1 : beNat (beBytes 8 bs.length) = bs.length := beNat_beBytes 8 _ (by simpa using hl)
    unfold readProofFile
    rw [if_neg (by simp)]
    simp [h1, C01_proof_roundtrip _ sampleProof_sized bs hbs hl, h2]
  obtain ⟨file', hne, hlen, h'⟩ := C09_another_file _ _ _ h
  exact ⟨_, file', (C08_files_exactly _ _ _).mp h, (C08_files_exactly _ _ _).mp h', hne, hlen⟩

/-- Public inputs that end inside a bound. -/
example : Format.CutInputs ((beBytes 8 32 ++ List.replicate 160 0) ++ [1]) :=
  (C07_panics_exactly_partial _).mp (by decide +kernel)

/-- Some strings are of no format. -/
example : ∀ p, ¬ Format.Proof p [0, 1, 2] := (C06_errors_exactly [0, 1, 2]).mp ⟨_, rfl⟩

end Verif.Props
