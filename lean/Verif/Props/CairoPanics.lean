import Verif.Props.VerifyPanics
import Verif.Props.CairoHonest
import Verif.Props.RandomOracle
import Verif.Props.Inputs

/-!
# C55: exactly when the verifier of Cairo proofs panics
-/

namespace Verif.Props
open Polynomial Verif.Spec CairoAir
variable {T : Type} {env : Env FE T}

/-- The challenges of a Cairo proof can be recovered: the public inputs have steps and bounds of the range check, the
out-of-domain frame has columns, there is a commitment to the trace, none of the cells of the public memory is hit by the
challenges drawn after it, and the sampling of the out-of-domain point ends. -/
def CairoStarts (env : Env FE T) (pi : PublicInputs) (options : ProofOptions) (d : Domain FE) (proof : StarkProof FE) :
    Prop :=
  pi.numSteps ≠ 0 ∧ pi.rangeCheckMin ≠ none ∧ pi.rangeCheckMax ≠ none ∧
  proof.traceOodFrameEvaluations.rowWidth ≠ 0 ∧
  ∃ root ∈ proof.ldeTraceMerkleRoots.head?,
    (∀ e ∈ pi.publicMemory,
      (challengesAfter env (air proof.traceLength pi options) root).zMemory
        ≠ e.1 + (challengesAfter env (air proof.traceLength pi options) root).alphaMemory * e.2) ∧
    env.tr.sampleZOod env.ofDigest d.ldeRootsOfUnityCoset d.traceRootsOfUnity
      (beforePoint env (air proof.traceLength pi options) proof.ldeTraceMerkleRoots 8 proof.compositionPolyRoot) ≠ none

theorem product_zero {z α : FE} : ∀ (l : List (FE × FE)) (acc : FE), (∃ e ∈ l, z = e.1 + α * e.2) ∨ acc = 0 →
    l.foldl (fun product e => product * (z - (e.1 + α * e.2))) acc = 0
  | [], acc, h => by
    rcases h with ⟨e, he, -⟩ | h
    · cases he
    · exact h
  | e :: l, acc, h => by
    rw [List.foldl_cons]
    refine product_zero l _ ?_
    rcases h with ⟨e', he', h⟩ | h
    · rcases List.mem_cons.1 he' with rfl | he'
      · right
        rw [h, sub_self, mul_zero]
      · exact .inl ⟨e', he', h⟩
    · right
      rw [h, zero_mul]

/-- The boundary constraints can be computed exactly for public inputs with steps and bounds whose public memory the
challenges do not hit. -/
theorem boundary_answers {pi : PublicInputs} {n : Nat} (hn : n ≠ 0) {ch : RAPChallenges FE} :
    (∃ cs, boundaryConstraints pi n ch = .ok cs) ↔ pi.numSteps ≠ 0 ∧ pi.rangeCheckMin ≠ none ∧ pi.rangeCheckMax ≠ none ∧
      ∀ e ∈ pi.publicMemory, ch.zMemory ≠ e.1 + ch.alphaMemory * e.2 := by
  constructor
  · rintro ⟨cs, h⟩
    obtain ⟨h1, -, lo, hi, h2, h3, h4, -⟩ := boundaryConstraints_ok h
    refine ⟨h1, by rw [h2]; simp, by rw [h3]; simp, fun e he hc => h4 ?_⟩
    exact product_zero _ _ (.inl ⟨e, he, hc⟩)
  · rintro ⟨h1, h2, h3, h4⟩
    exact boundary_exists pi h1 h2 h3 hn ch h4

theorem cairo_starts {pi : PublicInputs} {options : ProofOptions} {d : Domain FE} {proof : StarkProof FE}
    (hn : proof.traceLength ≠ 0) :
    Starts env (air proof.traceLength pi options) d proof ↔ CairoStarts env pi options d proof := by
  constructor
  · rintro ⟨hw, root, hroot, cs, hb, hz⟩
    obtain ⟨h1, h2, h3, h4⟩ := (boundary_answers hn).1 ⟨cs, hb⟩
    rw [boundary_count _ _ hb] at hz
    exact ⟨h1, h2, h3, hw, root, hroot, h4, hz⟩
  · rintro ⟨h1, h2, h3, hw, root, hroot, h4, hz⟩
    obtain ⟨cs, hb⟩ := (boundary_answers hn).2 ⟨h1, h2, h3, h4⟩
    refine ⟨hw, root, hroot, cs, hb, ?_⟩
    rw [boundary_count (options := options) _ _ hb]
    exact hz

/-- The frame of a Cairo proof can be read exactly when it has two rows with all the columns. -/
theorem cairo_frame {pi : PublicInputs} {n : Nat} {options : ProofOptions} {ch : RAPChallenges FE}
    {cs : List (BoundaryConstraint FE)} (hb : boundaryConstraints pi n ch = .ok cs) (frame : Frame FE) :
    FrameReadable (air n pi options) cs frame ch ↔
      traceColumns (hasRcBuiltin pi) ≤ frame.rowWidth ∧ 2 * frame.rowWidth ≤ frame.data.length := by
  unfold FrameReadable
  show _ ∧ (∃ evals, computeTransitionFrame _ _ _ = _) ↔ _
  constructor
  · rintro ⟨-, evals, he⟩
    simp only [computeTransitionFrame, Frame.getRow, subslice, Outcome.bind_eq_ok] at he
    obtain ⟨r0, -, r1, h1, he⟩ := he
    split at h1
    swap
    · cases h1
    rename_i hr
    split at he
    swap
    · cases he
    rename_i hc
    exact ⟨hc, by omega⟩
  · rintro ⟨h1, h2⟩
    refine ⟨fun c hc => ⟨lt_of_lt_of_le (boundary_columns hb c hc) h1, by omega⟩, ?_⟩
    simp only [computeTransitionFrame, Frame.getRow, subslice]
    rw [if_pos (by omega), Outcome.bind_ok, if_pos (by omega), Outcome.bind_ok, if_pos h1]
    exact ⟨_, rfl⟩

/-- **C55** for Cairo, exactly: for a trace length and a blowup factor that are powers of two and an offset that is not
a square, the verifier panics exactly on the proofs with enough queries such that
* the challenges cannot be recovered (`CairoStarts`), or
* the proof of work is right and the out-of-domain frame does not have two rows of at least 52 columns (61 with memory
  segments), or
* the out-of-domain check also accepts and one of the answers that are read has no value, or goes through more than
  `a + b + 1` layers, or
* the FRI check also accepts and one of the openings that are read has fewer values than there are columns. -/
theorem C55_cairo_panics_exactly (pi : PublicInputs) {options : ProofOptions} {a b : Nat} (ha : 1 ≤ a) (hb : 1 ≤ b)
    (hab : a + b < 64) (had : a + b < env.ta.adicity) (hbl : options.blowupFactor.toNat = 2 ^ b)
    (hsq : ¬ IsSquare (options.cosetOffset : FE)) {proof : StarkProof FE} (hlen : proof.traceLength = 2 ^ a)
    {columns : Nat} (hcolumns : columns = if pi.memorySegments = [] then 52 else 61) :
    ∃ d, Domain.new env.ta (air proof.traceLength pi options) = .ok d ∧
    (verifyCairoProof env proof pi options = .panic ↔
      options.friNumberOfQueries ≤ proof.queryList.length ∧
      (¬ CairoStarts env pi options d proof ∨
        ∃ c t, step1 env (air proof.traceLength pi options) proof d env.tr.init = .ok (c, t) ∧
          options.grindingFactor.toNat ≤ c.leadingZerosCount ∧
          (proof.traceOodFrameEvaluations.rowWidth < columns ∨
            proof.traceOodFrameEvaluations.data.length < 2 * proof.traceOodFrameEvaluations.rowWidth ∨
            step2 (air proof.traceLength pi options) proof d c = .ok true ∧
            ((∃ q ∈ proof.queryList.take options.friNumberOfQueries,
                q.layersEvaluations = [] ∨ a + b + 1 < answeredLayers proof q) ∨
              step3 env proof d c = .ok true ∧
              ∃ o ∈ proof.deepPolyOpenings.take options.friNumberOfQueries,
                o.ldeTraceEvaluations.length < columns)))) := by
  have S : Setting (air proof.traceLength pi options) a b := by
    rw [hlen]
    exact cairo_setting_of ha hb pi hbl hsq
  have hcol : columns = traceColumns (hasRcBuiltin pi) := by
    rw [hcolumns]
    unfold hasRcBuiltin
    cases pi.memorySegments <;> rfl
  obtain ⟨d, hd⟩ := domain_exists (ta := env.ta) S.rows S.length S.blowup hab had.le
  obtain ⟨g, w, D⟩ := domain_new S.rows S.length S.blowup hd
  have hn : proof.traceLength ≠ 0 := by
    rw [hlen]
    positivity
  refine ⟨d, hd, (C55_panics_exactly (new := CairoAir.new) (env := env) rfl rfl S hd).trans ?_⟩
  rw [cairo_starts hn]
  refine and_congr_right fun _ => or_congr_right ?_
  constructor
  · rintro ⟨c, t, cs, h1, hcs, hg, h⟩
    refine ⟨c, t, h1, hg, ?_⟩
    rw [cairo_frame hcs, ← hcol] at h
    by_cases hf : columns ≤ proof.traceOodFrameEvaluations.rowWidth ∧
      2 * proof.traceOodFrameEvaluations.rowWidth ≤ proof.traceOodFrameEvaluations.data.length
    swap
    · omega
    rcases h with h | ⟨h2, h⟩
    · exact absurd hf h
    refine .inr (.inr ⟨h2, ?_⟩)
    rcases h with h | ⟨h3, h⟩
    · left
      simp only [QueriesReadable, not_forall] at h
      obtain ⟨q, hq, h⟩ := h
      exact ⟨q, hq, by by_contra hc; rw [not_or, not_lt] at hc; exact h hc⟩
    · right
      refine ⟨h3, ?_⟩
      rcases h with ⟨i, -, hi⟩ | h
      · exfalso
        rw [D.lde, List.getElem?_map, Option.map_eq_some_iff] at hi
        obtain ⟨j, -, hj⟩ := hi
        exact square_notMem' (by omega) D.hw hsq had _ _ hj
      · simp only [OpeningsReadable, not_forall] at h
        obtain ⟨o, ho, h⟩ := h
        refine ⟨o, ho, ?_⟩
        by_contra hc
        rw [not_lt, hcol] at hc
        exact h ⟨(Nat.sub_le _ _).trans hc, fun _ => (min_le_right _ _).trans hc⟩
  · rintro ⟨c, t, h1, hg, h⟩
    obtain ⟨hi1, hi2, hi3, hi4, hi5, hi6⟩ := step1_inv h1
    obtain ⟨cs, hcs⟩ : ∃ cs, boundaryConstraints pi proof.traceLength c.rapChallenges = .ok cs := by
      have h := h1
      unfold step1 at h
      simp only [Outcome.bind_eq_ok, Outcome.pure_eq, Outcome.ok.injEq, Prod.mk.injEq] at h
      obtain ⟨root0, -, boundary, hb, z, -, t7, -, io, -, rfl, -⟩ := h
      exact ⟨boundary, hb⟩
    refine ⟨c, t, cs, h1, hcs, hg, ?_⟩
    rw [cairo_frame hcs, ← hcol]
    by_cases hf : columns ≤ proof.traceOodFrameEvaluations.rowWidth ∧
      2 * proof.traceOodFrameEvaluations.rowWidth ≤ proof.traceOodFrameEvaluations.data.length
    swap
    · exact .inl hf
    rcases h with h | h | ⟨h2, h⟩
    · omega
    · omega
    refine .inr ⟨h2, ?_⟩
    rcases h with ⟨q, hq, h⟩ | ⟨h3, o, ho, h⟩
    · left
      intro hr
      obtain ⟨h4, h5⟩ := hr q hq
      rcases h with h | h
      · exact h4 h
      · omega
    · right
      refine ⟨h3, .inr fun hr => ?_⟩
      have h4 := (hr o ho).2 (by omega)
      rw [hcol] at h hf
      have h5 : min proof.traceOodFrameEvaluations.rowWidth (traceColumns (hasRcBuiltin pi))
        ≤ o.ldeTraceEvaluations.length := h4
      rw [min_eq_right hf.1] at h5
      omega

open Verif.Examples in
/-- An accepted Cairo proof (of a false statement, from C46) on which the verifier panics after its answers have been
emptied; and a case of `C55_cairo_panics_exactly`: with as many queries as configured and a frame of one row, the verifier
panics exactly when the proof of work is right. -/
example : (∃ proof, verifyCairoProof envStark proof falseStatement ProofOptions.defaultTestOptions = .ok true ∧
      verifyCairoProof envStark { proof with queryList := List.replicate 3 ⟨[], [], [], []⟩ } falseStatement
        ProofOptions.defaultTestOptions = .panic) ∧
    ∀ x : FE, let proof := forgery (2 ^ 1) (digest 0) (digest 0) ⟨List.replicate 52 x, 52⟩ 0 0 0 3 0
      ∃ d, Domain.new envStark.ta (air 2 falseStatement ProofOptions.defaultTestOptions) = .ok d ∧
      (verifyCairoProof envStark proof falseStatement ProofOptions.defaultTestOptions = .panic ↔
        ∃ c t, step1 envStark (air 2 falseStatement ProofOptions.defaultTestOptions) proof d envStark.tr.init = .ok (c, t) ∧
          1 ≤ c.leadingZerosCount) := by
  constructor
  · obtain ⟨proof, hlen, -, -, h⟩ := accepted_example
    exact ⟨proof, h, C55_empty_answer_panics (new := CairoAir.new) (by rw [hlen]; rfl) rfl
      (cairo_setting (a := 1) le_rfl falseStatement) h _ (by decide) ⟨⟨[], [], [], []⟩, by decide, rfl⟩⟩
  · intro x proof
    obtain ⟨d, hd, h⟩ := C55_cairo_panics_exactly (env := envStark) falseStatement
      (options := ProofOptions.defaultTestOptions) (a := 1) (b := 2) le_rfl (by norm_num) (by norm_num)
      (by show _ < 192; norm_num) rfl (by exact_mod_cast three_not_square) (proof := proof) rfl (columns := 52) rfl
    refine ⟨d, hd, h.trans ?_⟩
    have hs : CairoStarts envStark falseStatement ProofOptions.defaultTestOptions d proof :=
      ⟨by decide, by decide, by decide, by simp [proof, forgery], digest 0, by simp [proof, forgery],
        (fun e he => by cases he),
        samplingEnds_of (cairo_setting (a := 1) le_rfl falseStatement)
          (fun lde trace t h1 h2 => sampleZOodStark _ _ _ (by rw [h1, h2]; norm_num)) _ _ hd⟩
    constructor
    · rintro ⟨-, h | ⟨c, t, h1, hg, -⟩⟩
      · exact absurd hs h
      · exact ⟨c, t, h1, hg⟩
    · rintro ⟨c, t, h1, hg⟩
      exact ⟨by simp [proof, forgery, ProofOptions.defaultTestOptions], .inr ⟨c, t, h1, hg, .inr (.inl (by simp [proof, forgery]))⟩⟩

end Verif.Props
