import Verif.Props.CairoPanics
import Verif.Props.Cli
import Verif.Props.Commands

/-!
# C55: every accepted file can be turned into one on which the command `verify` panics
-/

namespace Verif.Props
open CairoAir Verif.Spec Runner Cli
variable {T : Type} {env : Env FE T}

/-- An opening without values. -/
def emptyOpening : DeepPolynomialOpenings FE := ⟨⟨[]⟩, 0, 0, [], []⟩

/-- **C55** refuted, for files: for every file of an accepted proof there is a file, at most 104 bytes longer, with the same
public inputs and the same proof except for its openings, on which the command `verify` panics. Whoever passes on a proof
can make this file; no secret and no search is needed. -/
theorem C55_relayed_file_panics {pi : PublicInputs} (hpi : pi.WF) {proof : StarkProof FE} (hp : MachineSized proof)
    {a : Nat} (ha : 1 ≤ a) (hlen : proof.traceLength = 2 ^ a) {file : Bytes} (hf : writeProofFile proof pi = .ok file)
    (hl : file.length + 104 < 2 ^ 64)
    (h : verifyCairoProof env proof pi ProofOptions.defaultTestOptions = .ok true) :
    ∃ file' proof', file'.length ≤ file.length + 104 ∧ readProofFile file' = .ok (proof', pi) ∧
      proof' = { proof with deepPolyOpenings := proof'.deepPolyOpenings } ∧
      ∀ (vm : Vm) (w : World) (name path : String) (rest : List String), w.read path = some file' →
        Cli.main env vm w (name :: "verify" :: path :: rest) = .panic := by
  have hpanic := C55_short_opening_panics (env := env) (new := CairoAir.new) (pi := pi) (proof := proof)
    (air := air (2 ^ a) pi ProofOptions.defaultTestOptions)
    (by rw [hlen]; rfl) rfl (cairo_setting ha pi) h [emptyOpening] ⟨emptyOpening, by simp [emptyOpening,
      ProofOptions.defaultTestOptions, air], by
        show 0 < traceColumns (hasRcBuiltin pi) - numberAuxiliaryRapColumns
        cases hasRcBuiltin pi <;> decide⟩
  unfold writeProofFile StarkProof.serialize at hf
  simp only [Outcome.bind_eq_ok, Outcome.pure_eq, Outcome.ok.injEq] at hf
  obtain ⟨pb, ⟨queries, hq, hpb⟩, hfile⟩ := hf
  obtain ⟨bs, hbs⟩ : ∃ bs, ({ proof with deepPolyOpenings := [emptyOpening] } : StarkProof FE).serialize = .ok bs := by
    unfold StarkProof.serialize
    simp only [hq, Outcome.bind_ok]
    exact ⟨_, rfl⟩
  have hlen' : bs.length ≤ pb.length + 104 := by
    have hb := hbs
    unfold StarkProof.serialize at hb
    simp only [hq, Outcome.bind_ok, Outcome.pure_eq, Outcome.ok.injEq] at hb
    rw [← hb, ← hpb]
    simp only [List.length_append, length_beBytes, List.flatMap_cons, List.flatMap_nil, List.length_nil,
      DeepPolynomialOpenings.serialize, emptyOpening, serializeMerkleProof, length_feToBytesBe]
    omega
  have hfl : (beBytes 8 bs.length ++ bs ++ pi.serialize).length ≤ file.length + 104 := by
    rw [← hfile]
    simp only [List.length_append, length_beBytes]
    omega
  have hread := C08_proof_file_roundtrip { proof with deepPolyOpenings := [emptyOpening] } pi
    ⟨hp.traceLength, hp.nonce, hp.rowWidth⟩ hpi (beBytes 8 bs.length ++ bs ++ pi.serialize) (by
      unfold writeProofFile
      rw [hbs]
      rfl) (by omega)
  refine ⟨_, _, hfl, hread, rfl, fun vm w name path rest hr => ?_⟩
  exact (((C61_verify_ends vm w name).2 path rest).2 _ hr).2.2 _ _ hread |>.2.2 hpanic

open Verif.Examples in
/-- The hypotheses are met by an accepted proof of `falseStatement`, which has a file. -/
example : ∃ (file file' : Bytes), ∀ (vm : Vm) (w : World) (name path path' : String) (rest : List String),
    w.read path = some file → w.read path' = some file' →
    Cli.main envStark vm w (name :: "verify" :: path :: rest) = .ok (.verdict true) ∧
    Cli.main envStark vm w (name :: "verify" :: path' :: rest) = .panic := by
  have hwf : falseStatement.WF := ⟨List.nodup_nil, by simp [falseStatement], List.nodup_nil, by decide⟩
  obtain ⟨even, nonce, hnonce, hv⟩ := C46_forged_proof_accepted (env := envStark) (new := CairoAir.new)
    (pi := falseStatement) (cairo_setting (a := 1) le_rfl falseStatement) (by norm_num) (by show _ < 192; norm_num)
    three_not_square rfl rfl (fun ch => ⟨_, air_polynomial _ _ _ ch⟩) (digest 0) (digest 0) (by
      obtain ⟨cs, hcs⟩ := boundary_exists falseStatement (by decide) (by decide) (by decide) (n := 2 ^ 1) (by positivity)
        _ (fun e he => by cases he)
      exact ⟨cs, hcs, boundary_columns hcs⟩)
    (samplingEnds_of (cairo_setting le_rfl falseStatement)
      fun lde trace t h1 h2 => sampleZOodStark lde trace t (by rw [h1, h2]; norm_num)) generateNonce_stark
    (rows := List.replicate 2 (List.replicate 52 0)) rfl
    (fun r hr => by rw [(List.mem_replicate.mp hr).2, List.length_replicate]; rfl) 0 0 le_rfl
  obtain ⟨bs, hbs, hlen⟩ := forgery_bytes (2 ^ 1) (digest 0) (digest 0)
    ⟨(List.replicate 2 (List.replicate 52 0)).flatten, 52⟩ even 0 0 3 nonce
  have hf : writeProofFile (forgery (2 ^ 1) (digest 0) (digest 0)
      ⟨(List.replicate 2 (List.replicate 52 0)).flatten, 52⟩ even 0 0 3 nonce) falseStatement
      = .ok (beBytes 8 bs.length ++ bs ++ falseStatement.serialize) := by
    unfold writeProofFile
    rw [hbs]
    rfl
  have hpil := publicInputs_length falseStatement
  have hl : (beBytes 8 bs.length ++ bs ++ falseStatement.serialize).length + 104 < 2 ^ 64 := by
    simp only [List.length_append, length_beBytes, hlen, List.length_flatten, List.map_replicate, List.length_replicate,
      List.sum_replicate, smul_eq_mul]
    have : falseStatement.serialize.length ≤ 198 := hpil
    omega
  have hsized : MachineSized (forgery (2 ^ 1) (digest 0) (digest 0)
      ⟨(List.replicate 2 (List.replicate 52 (0 : FE))).flatten, 52⟩ even 0 0 3 nonce) :=
    ⟨by show 2 ^ 1 < _; norm_num, hnonce, by show 52 < _; norm_num⟩
  obtain ⟨file', proof', -, -, -, hpanic⟩ := C55_relayed_file_panics hwf hsized (a := 1) le_rfl rfl hf hl hv
  refine ⟨beBytes 8 bs.length ++ bs ++ falseStatement.serialize, file', fun vm w name path path' rest hr hr' => ⟨?_, hpanic vm w name path' rest hr'⟩⟩
  exact C61_accepted_files_partial.2 ⟨_, _, _, hr, C08_proof_file_roundtrip _ _ hsized hwf _ hf (by omega), hv⟩

end Verif.Props
