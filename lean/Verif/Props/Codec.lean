import Verif.Lemmas.PublicInputs

/-!
# Property theorems C01-C09: proof, public-input and proof-file encodings
-/

namespace Verif
namespace Props

/-- A small proof used to show that hypotheses are satisfiable. -/
def sampleMerkle : MerkleProof := ⟨[⟨List.replicate 32 7, rfl⟩, ⟨List.replicate 32 9, rfl⟩]⟩

def sampleFri : FriDecommitment FE := ⟨[sampleMerkle, ⟨[]⟩], [1, 2], [sampleMerkle], [3, 4, 5]⟩

def sampleOpening : DeepPolynomialOpenings FE := ⟨sampleMerkle, 6, -1, [sampleMerkle], [8, 9]⟩

def sampleProof : StarkProof FE :=
  { traceLength := 8
    ldeTraceMerkleRoots := [⟨List.replicate 32 1, rfl⟩]
    traceOodFrameEvaluations := ⟨[1, 2, 3, 4], 2⟩
    compositionPolyRoot := ⟨List.replicate 32 2, rfl⟩
    compositionPolyEvenOodEvaluation := 10
    compositionPolyOddOodEvaluation := 11
    friLayersMerkleRoots := [⟨List.replicate 32 3, rfl⟩, ⟨List.replicate 32 4, rfl⟩]
    friLastValue := 12
    queryList := [sampleFri, sampleFri]
    deepPolyOpenings := [sampleOpening]
    nonce := 77 }

def sampleInputs : PublicInputs :=
  { pcInit := 1, apInit := 9, fpInit := 9, pcFinal := 20, apFinal := 30
    rangeCheckMin := some 32766, rangeCheckMax := none
    memorySegments := [(.output, (20, 22)), (.rangeCheck, (30, 31))]
    publicMemory := [(1, 5), (2, -3)]
    numSteps := 3 }

theorem sampleProof_ok : ∃ bs, sampleProof.serialize = .ok bs ∧ bs.length < 2 ^ 64 :=
  ⟨_, rfl, by decide +kernel⟩

theorem sampleProof_sized : MachineSized sampleProof := ⟨by decide, by decide, by decide⟩

/-! ## C01 -/

/-- **C01.** Whenever serialization of a proof returns bytes, deserializing them returns the same
proof. (`bs.length < 2^64` holds of every Rust vector.) -/
theorem C01_proof_roundtrip (p : StarkProof FE) (hp : MachineSized p) (bs : Bytes)
    (hs : p.serialize = .ok bs) (hl : bs.length < 2 ^ 64) :
    StarkProof.deserialize bs = .ok p :=
  starkProof_roundtrip p bs hs hl hp.traceLength hp.nonce hp.rowWidth

/-- **C01.** Serialization returns bytes exactly when every FRI decommitment has an evaluation
(otherwise it panics). -/
theorem C01_serialize_total_iff (p : StarkProof FE) :
    (∃ bs, p.serialize = .ok bs) ↔ ∀ q ∈ p.queryList, q.layersEvaluations ≠ [] :=
  starkProof_serialize_ok_iff p

/-- Hypotheses of `C01_proof_roundtrip` are met by a proof with several layers and queries. -/
example : MachineSized sampleProof ∧ ∃ bs, sampleProof.serialize = .ok bs ∧ bs.length < 2 ^ 64 :=
  ⟨sampleProof_sized, sampleProof_ok⟩

/-! ## C02 -/

/-- **C02.** Public inputs survive serialization: every field is recovered and both maps have the
same content, for every iteration order of the maps and whatever follows the encoding. -/
theorem C02_public_inputs_roundtrip (p : PublicInputs) (hp : p.WF)
    (hl : p.serialize.length < 2 ^ 64) (rest : Bytes) :
    ∃ q, PublicInputs.deserialize (p.serialize ++ rest) = .ok q ∧
      q.pcInit = p.pcInit ∧ q.apInit = p.apInit ∧ q.fpInit = p.fpInit ∧
      q.pcFinal = p.pcFinal ∧ q.apFinal = p.apFinal ∧
      q.rangeCheckMin = p.rangeCheckMin ∧ q.rangeCheckMax = p.rangeCheckMax ∧
      q.numSteps = p.numSteps ∧
      q.memorySegments.Same p.memorySegments ∧ q.memorySegments.length = p.memorySegments.length ∧
      q.publicMemory.Same p.publicMemory ∧ q.publicMemory.length = p.publicMemory.length :=
  ⟨p, publicInputs_roundtrip p hp hl rest, rfl, rfl, rfl, rfl, rfl, rfl, rfl, rfl,
    fun _ => rfl, rfl, fun _ => rfl, rfl⟩

theorem sampleInputs_wf : sampleInputs.WF := by
  refine ⟨by unfold HMap.WF; decide, ?_, by unfold HMap.WF; decide +kernel, by decide⟩
  intro e he
  simp only [sampleInputs, List.mem_cons, List.not_mem_nil, or_false] at he
  rcases he with rfl | rfl <;> exact ⟨by decide, by decide⟩

theorem sampleInputs_len : sampleInputs.serialize.length < 2 ^ 64 := by
  simp [PublicInputs.serialize, sampleInputs, serializeOptU16, serializeSegment]

example : sampleInputs.WF ∧ sampleInputs.serialize.length < 2 ^ 64 :=
  ⟨sampleInputs_wf, sampleInputs_len⟩

/-! ## C03, C04, C05 -/

/-- **C03.** Evaluation frames survive serialization. -/
theorem C03_frame_roundtrip (f : Frame FE) (hr : f.rowWidth < 2 ^ 64)
    (hl : f.serialize.length < 2 ^ 64) : Frame.deserialize f.serialize = .ok f := by
  have := frame_roundtrip f hr hl []
  simpa using this

example : (⟨[1, 2, 3, 4], 2⟩ : Frame FE).rowWidth < 2 ^ 64 ∧
    (⟨[1, 2, 3, 4], 2⟩ : Frame FE).serialize.length < 2 ^ 64 := by
  simp [Frame.serialize]

/-- **C04.** FRI decommitments survive serialization. -/
theorem C04_fri_decommitment_roundtrip (d : FriDecommitment FE) (bs : Bytes)
    (hs : d.serialize = .ok bs) (hl : bs.length < 2 ^ 64) :
    FriDecommitment.deserialize bs = .ok d := by
  have := run'_of_parses (friDecommitment_roundtrip d bs hs hl) []
  simpa [FriDecommitment.deserialize] using this

/-- **C04.** Serialization of a decommitment panics exactly when it has no evaluations. -/
theorem C04_serialize_panics_iff (d : FriDecommitment FE) :
    d.serialize = .panic ↔ d.layersEvaluations = [] := by
  unfold FriDecommitment.serialize
  split <;> simp_all

example : ∃ bs, sampleFri.serialize = .ok bs ∧ bs.length < 2 ^ 64 := by
  refine ⟨_, rfl, ?_⟩
  simp [sampleFri, serializeMerkleProof, sampleMerkle]

/-- **C05.** The openings of one query survive serialization. -/
theorem C05_deep_openings_roundtrip (o : DeepPolynomialOpenings FE)
    (hl : o.serialize.length < 2 ^ 64) : DeepPolynomialOpenings.deserialize o.serialize = .ok o := by
  have := run'_of_parses (deepOpenings_roundtrip o hl) []
  simpa [DeepPolynomialOpenings.deserialize] using this

example : sampleOpening.serialize.length < 2 ^ 64 := by
  simp [sampleOpening, DeepPolynomialOpenings.serialize, serializeMerkleProof, sampleMerkle]

/-! ## C06, C07 -/

/-- **C06.** Parsing any byte string as a proof, frame, decommitment or opening never panics. -/
theorem C06_parse_proof_never_panics (bs : Bytes) :
    StarkProof.deserialize bs ≠ .panic ∧ Frame.deserialize bs ≠ .panic ∧
      FriDecommitment.deserialize bs ≠ .panic ∧ DeepPolynomialOpenings.deserialize bs ≠ .panic :=
  ⟨run'_ne_panic noPanic_starkProof bs, run'_ne_panic noPanic_frame bs,
    run'_ne_panic noPanic_fri bs, run'_ne_panic noPanic_deep bs⟩

/-- Both outcomes really occur. -/
example : StarkProof.deserialize [] = .err .invalidAmountOfBytes ∧
    (∃ bs, StarkProof.deserialize bs = .ok sampleProof) := by
  obtain ⟨bs, hbs, hl⟩ := sampleProof_ok
  exact ⟨rfl, bs, C01_proof_roundtrip _ sampleProof_sized bs hbs hl⟩

/-- A truncated public-input encoding: five 32-byte felts, then the tag of a present bound and
nothing else. -/
def truncatedInputs : Bytes := beBytes 8 32 ++ List.replicate 160 0 ++ [1]

/-- **C07 is false of the code.** A byte string makes public-input parsing panic. -/
theorem C07_parse_public_inputs_can_panic : ∃ bs, PublicInputs.deserialize bs = .panic :=
  ⟨truncatedInputs, (publicInputs_panic_iff _).2
    ⟨by decide +kernel, by decide +kernel, by decide +kernel, Or.inl (by decide +kernel)⟩⟩

/-- **C07 (what holds).** Parsing panics exactly on strings that announce a range-check bound in
their last two bytes: with `L` the declared felt length (at least 32), the string holds the five
felts and ends inside the first or the second bound. Every other string gives a value or an error.
Missing from the full property: those strings should give an error. -/
theorem C07_parse_public_inputs_panic_iff_partial (bs : Bytes) :
    PublicInputs.deserialize bs = .panic ↔
      8 ≤ bs.length ∧ 32 ≤ beNat (bs.take 8) ∧ 8 + 5 * beNat (bs.take 8) ≤ bs.length ∧
      (TruncatedBound (bs.drop (8 + 5 * beNat (bs.take 8))) = true ∨
        ∃ r, afterBound (bs.drop (8 + 5 * beNat (bs.take 8))) = some r ∧ TruncatedBound r = true) :=
  publicInputs_panic_iff bs

/-- **C07 (what holds).** Strings long enough for both bounds never make parsing panic. -/
theorem C07_no_panic_when_long_enough_partial (bs : Bytes)
    (h : 8 + 5 * beNat (bs.take 8) + 6 ≤ bs.length) : PublicInputs.deserialize bs ≠ .panic := by
  intro hc
  obtain ⟨_, _, _, h4⟩ := (publicInputs_panic_iff bs).1 hc
  have hlen : 6 ≤ (bs.drop (8 + 5 * beNat (bs.take 8))).length := by
    rw [List.length_drop]; omega
  revert h4
  generalize bs.drop (8 + 5 * beNat (bs.take 8)) = t at hlen
  match t, hlen with
  | a :: b :: c :: d :: e :: f :: t, _ =>
    by_cases h0 : a = 0 <;> by_cases h1 : a = 1 <;>
      simp_all [TruncatedBound, afterBound]

example : 8 + 5 * beNat ((sampleInputs.serialize).take 8) + 6 ≤ (sampleInputs.serialize).length := by
  simp [PublicInputs.serialize, sampleInputs, serializeOptU16, serializeSegment, beBytes, beNat]

/-! ## C08 -/

/-- **C08.** The file written by `prove` is read back by `verify` as the same proof and public
inputs. -/
theorem C08_proof_file_roundtrip (p : StarkProof FE) (i : PublicInputs) (hp : MachineSized p)
    (hi : i.WF) (file : Bytes) (hf : writeProofFile p i = .ok file) (hl : file.length < 2 ^ 64) :
    readProofFile file = .ok (p, i) := by
  simp only [writeProofFile, Outcome.bind_eq_ok, Outcome.pure_eq, Outcome.ok.injEq] at hf
  obtain ⟨pb, hpb, rfl⟩ := hf
  simp only [List.length_append, length_beBytes] at hl
  have h1 := C01_proof_roundtrip p hp pb hpb (by omega)
  have h2 := publicInputs_roundtrip i hi (by omega) []
  rw [List.append_nil] at h2
  have hb : beNat (beBytes 8 pb.length) = pb.length :=
    beNat_beBytes 8 pb.length (lt_of_lt_of_eq (by omega : pb.length < 2 ^ 64) (by norm_num))
  have ht : (beBytes 8 pb.length ++ pb ++ i.serialize).take 8 = beBytes 8 pb.length := by
    have := List.take_left (l₁ := beBytes 8 pb.length) (l₂ := pb ++ i.serialize)
    rwa [length_beBytes, ← List.append_assoc] at this
  have hd : (beBytes 8 pb.length ++ pb ++ i.serialize).drop 8 = pb ++ i.serialize := by
    have := List.drop_left (l₁ := beBytes 8 pb.length) (l₂ := pb ++ i.serialize)
    rwa [length_beBytes, ← List.append_assoc] at this
  have h8 : ¬ (beBytes 8 pb.length ++ pb ++ i.serialize).length < 8 := by simp
  have h9 : ¬ (pb ++ i.serialize).length < pb.length := by simp
  simp only [readProofFile, h8, if_false, ht, hd, hb, h9, List.take_left, List.drop_left, h1, h2]

/-- **C08.** A file that is shorter than its header, or than the proof length it declares, is
rejected with an error. -/
theorem C08_short_file_rejected (file : Bytes)
    (h : file.length < 8 ∨ file.length < 8 + beNat (file.take 8)) :
    readProofFile file = .err () := by
  unfold readProofFile
  by_cases h8 : file.length < 8
  · simp [h8]
  · have : (file.drop 8).length < beNat (file.take 8) := by
      rw [List.length_drop]; omega
    simp only [h8, if_false, this, if_true]

example : ∃ file, writeProofFile sampleProof sampleInputs = .ok file ∧ file.length < 2 ^ 64 := by
  exact ⟨_, rfl, by decide +kernel⟩

example : ([0, 0, 0, 0, 0, 0, 0, 5, 1, 2] : Bytes).length <
    8 + beNat (([0, 0, 0, 0, 0, 0, 0, 5, 1, 2] : Bytes).take 8) := by decide

/-! ## C09 -/

/-- **C09 (the half that holds).** Different proofs have different encodings. Missing: a proof
should have a single accepted encoding. -/
theorem C09_encoding_injective_partial (p q : StarkProof FE) (hp : MachineSized p)
    (hq : MachineSized q) (bs : Bytes) (h1 : p.serialize = .ok bs) (h2 : q.serialize = .ok bs)
    (hl : bs.length < 2 ^ 64) : p = q := by
  have a := C01_proof_roundtrip p hp bs h1 hl
  have b := C01_proof_roundtrip q hq bs h2 hl
  rw [a] at b
  exact Outcome.ok.inj b

/-- **C09 is false of the code.** Every proof that can be serialized has infinitely many accepted
encodings: any bytes may be inserted before the final nonce. -/
theorem C09_encoding_malleable (p : StarkProof FE) (hp : MachineSized p) (bs : Bytes)
    (hs : p.serialize = .ok bs) (hl : bs.length < 2 ^ 64) (n : Nat) :
    ∃ bs', bs'.length = bs.length + n ∧ StarkProof.deserialize bs' = .ok p := by
  obtain ⟨body, rfl, h⟩ := starkProof_roundtrip_junk p bs hs hl hp.traceLength hp.nonce hp.rowWidth
  exact ⟨body ++ (List.replicate n 0 ++ beBytes 8 p.nonce), by simp; omega, h _⟩

/-- The hypotheses are those of C01, met by `sampleProof`: malleability is not vacuous. -/
theorem C09_malleable_witness : ∃ bs bs' : Bytes, bs ≠ bs' ∧
    StarkProof.deserialize bs = .ok sampleProof ∧ StarkProof.deserialize bs' = .ok sampleProof := by
  have hm := sampleProof_sized
  obtain ⟨bs, hbs, hl⟩ := sampleProof_ok
  obtain ⟨bs', h1, h2⟩ := C09_encoding_malleable sampleProof hm bs hbs hl 1
  refine ⟨bs, bs', ?_, C01_proof_roundtrip _ hm bs hbs hl, h2⟩
  rintro rfl; omega

end Props
end Verif
