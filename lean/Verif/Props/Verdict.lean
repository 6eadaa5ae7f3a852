import Verif.Lemmas.Verdict
import Verif.Props.NoPanic
import Verif.Props.Shape

/-!
# C75: what the verdict says
-/

namespace Verif.Props
open Polynomial Verif.Spec CairoAir TraceTable
variable {F T Ch : Type} [Field F] [DecidableEq F] {env : Env F T}

/-- The checks of the code are those of the specification. -/
theorem verdict_iff {PI : Type} {new : AirNew F Ch PI} {pi : PI} {options : ProofOptions}
    {proof : StarkProof F} {air : Air F Ch} (hair : new proof.traceLength pi options = .ok air)
    (hopt : air.context.proofOptions = options) {a b : Nat} (S : Setting air a b) {d : Domain F} {g w : F}
    (hd : Domain.new env.ta air = .ok d) (D : IsDomain env.ta d a b (air.context.proofOptions.cosetOffset : F) g w)
    {c : Challenges F Ch} {t : T} (h1 : step1 env air proof d env.tr.init = .ok (c, t))
    {boundary : List (BoundaryConstraint F)} (hb : air.boundaryConstraints c.rapChallenges = .ok boundary)
    {r : Bool} (h : verify env new proof pi options = .ok r) :
    r = true ↔ Checks env air proof boundary a b g w c := by
  have hi6 := (step1_inv h1).2.2.2.2.2
  rw [D.ldeRootOrder] at hi6
  unfold verify at h
  split at h
  next hq =>
    obtain rfl := Outcome.ok.inj h
    refine ⟨Bool.noConfusion, fun C => ?_⟩
    have := C.queries
    rw [hopt] at this
    omega
  next hq =>
  simp only [hair, hd, h1, Outcome.bind_ok] at h
  split at h
  next hg =>
    obtain rfl := Outcome.ok.inj h
    refine ⟨Bool.noConfusion, fun C => ?_⟩
    have := C.grinding
    omega
  next hg =>
  rw [Outcome.bind_eq_ok] at h
  obtain ⟨r2, h2, h⟩ := h
  obtain ⟨boundary', evals, hb', hev, hr2⟩ := step2_value D S.fits S.length h2
  obtain rfl := Outcome.ok.inj (hb.symm.trans hb')
  cases r2 with
  | false =>
    obtain rfl := Outcome.ok.inj h
    refine ⟨Bool.noConfusion, fun C => ?_⟩
    obtain ⟨evals', hev', he⟩ := C.composition
    obtain rfl := Outcome.ok.inj (hev.symm.trans hev')
    exact hr2.mpr he
  | true =>
  simp only [Bool.not_true, Bool.false_eq_true, if_false] at h
  rw [Outcome.bind_eq_ok] at h
  obtain ⟨r3, h3, h⟩ := h
  have hr3 : r3 = true ↔ ∀ (i : Nat) q iota, proof.queryList[i]? = some q → c.iotas[i]? = some iota →
      QueryHolds env proof c.zetas (a + b) iota (w ^ iota * (air.context.proofOptions.cosetOffset : F)) q := by
    constructor
    · rintro rfl
      intro i q iota hq hi
      have := (step3_true.mp h3).2.2 i q iota _ hq hi (D.lde_getElem? (hi6 _ (List.mem_of_getElem? hi)))
      rwa [D.ldeRootOrder] at this
    · intro hall
      have : step3 env proof d c = .ok true := step3_true.mpr ⟨D.two_ne, fun iota hi =>
        ⟨_, D.lde_getElem? (hi6 _ hi), mul_ne_zero (pow_ne_zero _ D.w_ne) S.offset⟩, fun i q iota x hq hi hx => by
          rw [D.lde_getElem? (hi6 _ (List.mem_of_getElem? hi))] at hx
          obtain rfl := Option.some.inj hx
          rw [D.ldeRootOrder]
          exact hall i q iota hq hi⟩
      exact Outcome.ok.inj (h3.symm.trans this)
  cases r3 with
  | false =>
    obtain rfl := Outcome.ok.inj h
    exact ⟨Bool.noConfusion, fun C => hr3.mpr C.fri⟩
  | true =>
  simp only [Bool.not_true, Bool.false_eq_true, if_false] at h
  rw [Outcome.bind_eq_ok] at h
  obtain ⟨r4, h4, h⟩ := h
  have hr : r4 = r := by cases r4 <;> exact Outcome.ok.inj h
  subst hr
  have hroot : env.ta.getRoot d.rootOrder = (.ok g : Outcome Empty F) := by
    rw [D.rootOrder]
    exact getRoot_ok.mpr D.hg
  rw [step4_value hroot h4]
  have hq' : ∀ (i : Nat) iota, c.iotas[i]? = some iota → ∃ q, proof.queryList[i]? = some q := by
    intro i iota hi
    have := (List.getElem?_eq_some_iff.mp hi).1
    rw [(step1_inv h1).2.2.2.2.1, hopt] at this
    exact ⟨_, List.getElem?_eq_getElem (by omega)⟩
  constructor
  · intro hall
    refine ⟨by rw [hopt]; omega, by omega, ⟨evals, hev, hr2.mp rfl⟩, hr3.mp rfl, fun i iota o q hi ho hq => ?_⟩
    obtain ⟨q', hq', O⟩ := hall i iota o _ hi ho (D.lde_getElem? (hi6 _ (List.mem_of_getElem? hi)))
    obtain rfl := Option.some.inj (hq.symm.trans hq')
    exact O
  · intro C i iota o x hi ho hx
    rw [D.lde_getElem? (hi6 _ (List.mem_of_getElem? hi))] at hx
    obtain rfl := Option.some.inj hx
    obtain ⟨q, hq⟩ := hq' i iota hi
    exact ⟨q, hq, C.deep i iota o q hi ho hq⟩

/-- **C75**: when the verifier answers on a proof of the shape the prover makes, there is an interaction in
which the prover sends the contents of the proof, unless the proof has too few queries, and the answer is yes exactly
when the checks of the specification hold for the challenges of such an interaction. -/
theorem C75_verdict {PI : Type} {new : AirNew F Ch PI} {pi : PI} {options : ProofOptions}
    {proof : StarkProof F} {air : Air F Ch} (hair : new proof.traceLength pi options = .ok air)
    (hopt : air.context.proofOptions = options) {a b : Nat} (S : Setting air a b) (W : WellFormed air proof (a + b))
    {r : Bool} (h : verify env new proof pi options = .ok r) :
    (proof.queryList.length < options.friNumberOfQueries ∧ r = false) ∨
    ∃ g w, env.ta.root a = some g ∧ env.ta.root (a + b) = some w ∧
      (∃ boundary x, Replays env air proof boundary a b g w x) ∧
      ∀ boundary x, Replays env air proof boundary a b g w x →
        (r = true ↔ Checks env air proof boundary a b g w (x.challenges env air proof (a + b))) := by
  by_cases hq : proof.queryList.length < options.friNumberOfQueries
  · left
    unfold verify at h
    rw [if_pos hq] at h
    exact ⟨hq, (Outcome.ok.inj h).symm⟩
  right
  have h' := h
  unfold verify at h'
  rw [if_neg hq] at h'
  simp only [Outcome.bind_eq_ok, hair, Outcome.ok.injEq, exists_eq_left'] at h'
  obtain ⟨d, hd, ⟨c, t⟩, h1, -⟩ := h'
  obtain ⟨g, w, D⟩ := domain_new S.rows S.length S.blowup hd
  obtain ⟨boundary, x, R, -⟩ := replays_of_step1 D S.fits.columns_pos W h1
  refine ⟨g, w, D.hg, D.hw, ⟨boundary, x, R⟩, fun boundary x R => ?_⟩
  obtain ⟨t', h1'⟩ := step1_of_replays D S.fits.columns_pos W R
  exact verdict_iff hair hopt S hd D h1' R.constraints h

omit [Field F] [DecidableEq F] in
theorem wellFormed_of_shape {air : Air F Ch} {proof : StarkProof F} {a b trees queries : Nat} (ha : 1 ≤ a)
    (ht : 1 ≤ trees)
    (P : ProofShape proof a b air.context.traceColumns trees air.context.transitionOffsets.length queries) :
    WellFormed air proof (a + b) := by
  refine ⟨?_, P.frameWidth, P.frameData, by rw [P.friLayers]; omega, fun q hq => ?_, fun o ho =>
    (P.opening o ho).2.2.2.ge⟩
  · refine List.ne_nil_of_length_pos ?_
    rw [P.traceRoots]
    omega
  · refine List.ne_nil_of_length_pos ?_
    rw [(P.query q hq).1]
    omega

/-- **C75**, the prover: on a satisfying trace, the challenges it uses are those of the interaction in which it sends
the contents of its proof. -/
theorem C75_prover {PI : Type} {new : AirNew F Ch PI} {pi : PI} {options : ProofOptions}
    {air : Air F Ch} {a b : Nat} (S : Setting air a b) (hnew : new (2 ^ a) pi options = .ok air)
    {rows : List (List F)} {k : Nat} (hk : 0 < k)
    (hrows : rows.length = 2 ^ a) (hr : ∀ r ∈ rows, r.length = k)
    (hc : ∀ ch, ∃ cs, PolynomialConstraints air ch cs)
    (hsat : ∀ root, CommitmentTo env air (ofRows rows k) root → ∀ aux bcs,
      air.buildAuxiliaryTrace (ofRows rows k) (challengesAfter env air root) = .ok aux →
      air.boundaryConstraints (challengesAfter env air root) = .ok bcs →
      SatisfiesExtended air rows k (challengesAfter env air root) aux)
    {proof : StarkProof F} (hproof : prove env new (ofRows rows k) pi options = .ok proof) :
    ∃ d g w r1 r2 deep layers ps boundary x, Domain.new env.ta air = .ok d ∧
      env.ta.root a = some g ∧ env.ta.root (a + b) = some w ∧ Replays env air proof boundary a b g w x ∧
      ProverUses env air d (ofRows rows k) proof (x.challenges env air proof (a + b)) r1 r2 deep layers ps := by
  have hnr : (ofRows rows k).nRows = 2 ^ a := by rw [nRows_ofRows _ _ hk hr, hrows]
  obtain ⟨root, aux, -, -, P⟩ := C62_proof_shape S hnew hk hrows hr hc hsat hproof
  have W := wellFormed_of_shape S.rows (by split <;> omega) P
  obtain ⟨d, c, t, r1, r2, deep, layers, ps, hd, hs, U⟩ :=
    C49_same_challenges (by rw [hnr]; exact hnew) S.rows S.length S.blowup hproof
  obtain ⟨g, w, D⟩ := domain_new S.rows S.length S.blowup hd
  obtain ⟨boundary, x, R, rfl⟩ := replays_of_step1 D S.fits.columns_pos W hs
  exact ⟨d, g, w, r1, r2, deep, layers, ps, boundary, x, hd, D.hg, D.hw, R, U⟩

/-- **C75**, for Cairo with the options the program uses. -/
theorem C75_cairo_verdict {env : Env FE T} (pi : PublicInputs) {a : Nat} (ha : 1 ≤ a)
    {proof : StarkProof FE} (hlen : proof.traceLength = 2 ^ a)
    (W : WellFormed (air (2 ^ a) pi ProofOptions.defaultTestOptions) proof (a + 2)) {r : Bool}
    (h : verifyCairoProof env proof pi ProofOptions.defaultTestOptions = .ok r) :
    (proof.queryList.length < 3 ∧ r = false) ∨
    ∃ g w, env.ta.root a = some g ∧ env.ta.root (a + 2) = some w ∧
      (∃ boundary x, Replays env (air (2 ^ a) pi ProofOptions.defaultTestOptions) proof boundary a 2 g w x) ∧
      ∀ boundary x, Replays env (air (2 ^ a) pi ProofOptions.defaultTestOptions) proof boundary a 2 g w x →
        (r = true ↔ Checks env (air (2 ^ a) pi ProofOptions.defaultTestOptions) proof boundary a 2 g w
          (x.challenges env (air (2 ^ a) pi ProofOptions.defaultTestOptions) proof (a + 2))) :=
  C75_verdict (new := CairoAir.new) (by rw [hlen]; rfl) rfl (cairo_setting ha pi) W h

open Examples ExampleAirs TraceTable in
/-- The hypotheses are met: the proof of four rows of the Fibonacci sequence, for which the answer is yes, so the
checks hold. -/
example : ∃ proof g w boundary x, verify env17 fibonacci2 proof ⟨1, 1⟩ (options17 3) = .ok true ∧
    Replays env17 air17 proof boundary 2 1 g w x ∧
    Checks env17 air17 proof boundary 2 1 g w (x.challenges env17 air17 proof (2 + 1)) := by
  obtain ⟨proof, hp, hv⟩ := honest17
  have hs : ∀ root, CommitmentTo env17 air17 (ofRows rows17 2) root → ∀ aux bcs,
      air17.buildAuxiliaryTrace (ofRows rows17 2) (challengesAfter env17 air17 root) = .ok aux →
      air17.boundaryConstraints (challengesAfter env17 air17 root) = .ok bcs →
      SatisfiesExtended air17 rows17 2 (challengesAfter env17 air17 root) aux := by
    intro _ _ aux bcs h1 _
    obtain rfl := Outcome.ok.inj h1
    exact extended17 _
  obtain ⟨root, aux, -, -, P⟩ := C62_proof_shape (env := env17) setting17 air17_eq (by norm_num) rfl (by decide)
    (fun ch => ⟨_, fibonacci2_polynomial _ _ _ air17_eq ch⟩) hs hp
  have W := wellFormed_of_shape setting17.rows (by split <;> omega) P
  rcases C75_verdict (by rw [P.traceLength]; exact air17_eq) rfl setting17 W hv with ⟨-, h⟩ | ⟨g, w, -, -, ⟨bd, x, R⟩, h⟩
  · cases h
  · exact ⟨proof, g, w, bd, x, hv, R, (h bd x R).mp rfl⟩

/-- A proof for the statement `falseStatement` with three queries and any last value: the verifier answers, and the
answer is that of the checks. -/
example : let proof := forgery (2 ^ 1) (Examples.digest 0) (Examples.digest 0) ⟨List.replicate 104 0, 52⟩ 0 0 0 3 0
    ∀ v : FE, ∃ g w boundary x r, verifyCairoProof Examples.envStark { proof with friLastValue := v } falseStatement
        ProofOptions.defaultTestOptions = .ok r ∧
      Replays Examples.envStark (air (2 ^ 1) falseStatement ProofOptions.defaultTestOptions)
        { proof with friLastValue := v } boundary 1 2 g w x ∧
      (r = true ↔ Checks Examples.envStark (air (2 ^ 1) falseStatement ProofOptions.defaultTestOptions)
        { proof with friLastValue := v } boundary 1 2 g w (x.challenges Examples.envStark
          (air (2 ^ 1) falseStatement ProofOptions.defaultTestOptions) { proof with friLastValue := v } (1 + 2))) := by
  intro proof v
  have W : WellFormed (air (2 ^ 1) falseStatement ProofOptions.defaultTestOptions)
      { proof with friLastValue := v } (1 + 2) :=
    ⟨by simp [proof, forgery], rfl, by simp [proof, forgery, air, hasRcBuiltin, falseStatement, traceColumns],
      by simp [proof, forgery], by simp [proof, forgery], by simp [proof, forgery]⟩
  have hv := C55_cairo_answers_partial (env := Examples.envStark) (a := 1) falseStatement (by decide) (by decide)
    (by decide) le_rfl (by norm_num)
    (by show _ < 192; norm_num) rfl (fun _ _ e he => by cases he)
    (samplingEnds_of (cairo_setting le_rfl falseStatement)
      fun lde trace t h1 h2 => Examples.sampleZOodStark _ _ _ (by rw [h1, h2]; norm_num)) W
  obtain ⟨r, hr⟩ : ∃ r, verifyCairoProof Examples.envStark { proof with friLastValue := v } falseStatement
      ProofOptions.defaultTestOptions = .ok r := by
    rcases hv with h | h <;> exact ⟨_, h⟩
  rcases C75_cairo_verdict falseStatement le_rfl rfl W hr with ⟨h, -⟩ | ⟨g, w, -, -, ⟨bd, x, R⟩, h⟩
  · simp [proof, forgery] at h
  · exact ⟨g, w, bd, x, r, hr, R, h bd x R⟩

end Verif.Props
