import Verif.Lemmas.NoPanic
import Verif.Props.Verifier
import Verif.Props.Codec

/-!
# C55: when the verifier gives an answer
-/

namespace Verif.Props
open Polynomial Verif.Spec CairoAir
variable {F T Ch : Type} [Field F] [DecidableEq F] {env : Env F T}

/-- **C55** in part: on every proof of the shape the prover makes, true or not, the verifier returns true or
false, when the boundary constraints of the AIR can be computed for the challenges it draws, the sampling of the
out-of-domain point ends and the coset offset is not a square. Missing: other shapes and public inputs, for which
it can panic (`C55_no_trace_root_panics`, `C55_zero_width_frame_panics`, `C55_missing_bounds_panic`,
`C55_decoded_proof_panics`). -/
theorem C55_answers_partial {PI : Type} {new : AirNew F Ch PI} {pi : PI} {options : ProofOptions}
    {proof : StarkProof F} {air : Air F Ch} (hair : new proof.traceLength pi options = .ok air)
    (hopt : air.context.proofOptions = options) {a b : Nat} (S : Setting air a b)
    (hab : a + b < 64) (had : a + b < env.ta.adicity)
    (hsq : ¬ IsSquare (air.context.proofOptions.cosetOffset : F))
    (hc : ∀ ch, ∃ cs, PolynomialConstraints air ch cs)
    (hb : ∀ root ∈ proof.ldeTraceMerkleRoots.head?,
      ∃ bcs, air.boundaryConstraints (challengesAfter env air root) = .ok bcs ∧
        ∀ c ∈ bcs, c.col < air.context.traceColumns)
    (hz : SamplingEnds env air)
    (W : WellFormed air proof (a + b)) :
    verify env new proof pi options = .ok true ∨ verify env new proof pi options = .ok false := by
  obtain ⟨r, hr⟩ := verify_exists (env := env) hair hopt S hab had.le
    (fun w z hw i => square_notMem' (by have := S.rows; omega) hw hsq had z i) hc hb hz W
  cases r
  · exact .inr hr
  · exact .inl hr

/-- **C55** in part, for Cairo with the options the program uses: on every proof of the right shape the
verifier returns true or false, if the public inputs have a step and bounds of the range check, and their
public memory does not contain the challenges drawn after the first commitment of the proof. -/
theorem C55_cairo_answers_partial {env : Env FE T} (pi : PublicInputs) (hsteps : pi.numSteps ≠ 0)
    (hmin : pi.rangeCheckMin ≠ none) (hmax : pi.rangeCheckMax ≠ none) {a : Nat} (ha : 1 ≤ a)
    (hab : a + 2 < 64) (had : a + 2 < env.ta.adicity)
    {proof : StarkProof FE} (hlen : proof.traceLength = 2 ^ a)
    (hmem : ∀ root ∈ proof.ldeTraceMerkleRoots.head?, ∀ e ∈ pi.publicMemory,
      (challengesAfter env (air (2 ^ a) pi ProofOptions.defaultTestOptions) root).zMemory
        ≠ e.1 + (challengesAfter env (air (2 ^ a) pi ProofOptions.defaultTestOptions) root).alphaMemory * e.2)
    (hz : SamplingEnds env (air (2 ^ a) pi ProofOptions.defaultTestOptions))
    (W : WellFormed (air (2 ^ a) pi ProofOptions.defaultTestOptions) proof (a + 2)) :
    verifyCairoProof env proof pi ProofOptions.defaultTestOptions = .ok true ∨
    verifyCairoProof env proof pi ProofOptions.defaultTestOptions = .ok false :=
  C55_answers_partial (new := CairoAir.new) (by rw [hlen]; rfl) rfl (cairo_setting ha pi) hab had
    (by exact_mod_cast three_not_square) (fun ch => ⟨_, air_polynomial _ _ _ ch⟩) (fun root hroot => by
      obtain ⟨cs, hcs⟩ := boundary_exists pi hsteps hmin hmax (n := 2 ^ a) (by positivity) _ (hmem root hroot)
      exact ⟨cs, hcs, boundary_columns hcs⟩) hz W

/-- The hypotheses of the theorems above are met: a proof for the statement `falseStatement`. -/
example (x : FE) : let proof := forgery (2 ^ 1) (Examples.digest 0) (Examples.digest 0) ⟨List.replicate 104 0, 52⟩ 0 0 0 3 0
    verifyCairoProof Examples.envStark { proof with friLastValue := x } falseStatement
      ProofOptions.defaultTestOptions = .ok true ∨
    verifyCairoProof Examples.envStark { proof with friLastValue := x } falseStatement
      ProofOptions.defaultTestOptions = .ok false :=
  C55_cairo_answers_partial (a := 1) falseStatement (by decide) (by decide) (by decide) le_rfl (by norm_num)
    (by show _ < 192; norm_num) rfl (fun _ _ e he => by cases he)
    (samplingEnds_of (cairo_setting le_rfl falseStatement)
      fun lde trace t h1 h2 => Examples.sampleZOodStark _ _ _ (by rw [h1, h2]; norm_num))
    ⟨by simp [forgery], rfl, by simp [forgery, air, hasRcBuiltin, falseStatement, traceColumns], by simp [forgery],
      by simp [forgery], by simp [forgery]⟩

theorem bind_panic {ε α β : Type} {x : Outcome Empty α} {f : α → Outcome Empty β}
    (h : ∀ a, x = .ok a → f a = .panic) : x >>= f = .panic := by
  cases x with
  | ok a => exact h a rfl
  | err e => cases e
  | panic => rfl

/-- Without an answer from the first step there is none from the verifier. -/
theorem verify_panic {PI : Type} {new : AirNew F Ch PI} {pi : PI} {options : ProofOptions}
    {proof : StarkProof F} (hq : options.friNumberOfQueries ≤ proof.queryList.length)
    (h : ∀ air d t, new proof.traceLength pi options = .ok air → step1 env air proof d t = .panic) :
    verify env new proof pi options = .panic := by
  unfold verify
  rw [if_neg (by omega)]
  refine bind_panic (ε := Empty) fun air hair => bind_panic (ε := Empty) fun d _ => ?_
  rw [h air d _ hair]
  rfl

/-- **C55** refuted: the verifier panics on every proof without a commitment to the trace. -/
theorem C55_no_trace_root_panics {PI : Type} (new : AirNew F Ch PI) (pi : PI) (options : ProofOptions)
    (proof : StarkProof F) (hq : options.friNumberOfQueries ≤ proof.queryList.length)
    (h : proof.ldeTraceMerkleRoots = []) : verify env new proof pi options = .panic := by
  refine verify_panic hq fun air d t _ => ?_
  unfold step1
  rw [h]
  rfl

/-- **C55** refuted: the verifier panics on every proof whose out-of-domain frame has the width zero. -/
theorem C55_zero_width_frame_panics {PI : Type} (new : AirNew F Ch PI) (pi : PI) (options : ProofOptions)
    (proof : StarkProof F) (hq : options.friNumberOfQueries ≤ proof.queryList.length)
    (h : proof.traceOodFrameEvaluations.rowWidth = 0) : verify env new proof pi options = .panic := by
  refine verify_panic hq fun air d t _ => ?_
  unfold step1
  refine bind_panic (ε := Empty) fun root _ => bind_panic (ε := Empty) fun bcs _ =>
    bind_panic (ε := Empty) fun z _ => ?_
  unfold appendFrame Frame.numRows
  rw [if_pos h]
  rfl

/-- **C55** refuted: the verifier panics on every proof for Cairo public inputs without bounds of the range
check, or without steps. -/
theorem C55_missing_bounds_panic {env : Env FE T} (pi : PublicInputs) (options : ProofOptions)
    (proof : StarkProof FE) (hq : options.friNumberOfQueries ≤ proof.queryList.length)
    (h : pi.rangeCheckMin = none ∨ pi.rangeCheckMax = none ∨ pi.numSteps = 0) :
    verifyCairoProof env proof pi options = .panic := by
  refine verify_panic hq fun A d t hA => ?_
  obtain rfl := Outcome.ok.inj hA
  unfold step1
  refine bind_panic (ε := Empty) fun root _ => bind_panic (ε := Empty) fun bcs hb => ?_
  exfalso
  obtain ⟨h1, -, lo, hi, h2, h3, -⟩ := boundaryConstraints_ok hb
  rcases h with h | h | h
  · rw [h] at h2; cases h2
  · rw [h] at h3; cases h3
  · exact h1 h

/-- A proof without commitments to the trace. -/
def emptyProof : StarkProof FE where
  traceLength := 2
  ldeTraceMerkleRoots := []
  traceOodFrameEvaluations := ⟨[], 1⟩
  compositionPolyRoot := Examples.digest 0
  compositionPolyEvenOodEvaluation := 0
  compositionPolyOddOodEvaluation := 0
  friLayersMerkleRoots := []
  friLastValue := 0
  queryList := [⟨[], [], [], [0]⟩, ⟨[], [], [], [0]⟩, ⟨[], [], [], [0]⟩]
  deepPolyOpenings := []
  nonce := 0

/-- **C55** refuted: there are bytes that decode to a proof on which the verifier panics, whatever the public
inputs, the hash functions and the transcript are. -/
theorem C55_decoded_proof_panics :
    ∃ bs proof, StarkProof.deserialize bs = .ok proof ∧
      ∀ (T : Type) (env : Env FE T) (pi : PublicInputs),
        verifyCairoProof env proof pi ProofOptions.defaultTestOptions = .panic := by
  obtain ⟨bs, hbs, hl⟩ : ∃ bs, emptyProof.serialize = .ok bs ∧ bs.length < 2 ^ 64 := ⟨_, rfl, by decide +kernel⟩
  exact ⟨bs, emptyProof, C01_proof_roundtrip emptyProof ⟨by decide, by decide, by decide⟩ bs hbs hl,
    fun T env pi => C55_no_trace_root_panics CairoAir.new pi _ emptyProof (by decide) rfl⟩

/-- The hypotheses of the theorems above are met: `emptyProof` with a frame of the width zero, and the public inputs
`falseStatement` before the bounds of the range check are known. -/
example (env : Env FE T) (pi : PublicInputs) :
    verifyCairoProof env { emptyProof with traceOodFrameEvaluations := ⟨[], 0⟩ } pi ProofOptions.defaultTestOptions
      = .panic ∧
    verifyCairoProof env { emptyProof with ldeTraceMerkleRoots := [Examples.digest 0] }
      { falseStatement with rangeCheckMin := none } ProofOptions.defaultTestOptions = .panic :=
  ⟨C55_zero_width_frame_panics CairoAir.new pi _ _ (by decide) rfl,
    C55_missing_bounds_panic _ _ _ (by decide) (Or.inl rfl)⟩

end Verif.Props
