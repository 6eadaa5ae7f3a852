import Verif.Lemmas.DeepDecode
import Verif.Lemmas.Probability
import Verif.Props.FriSound

/-!
# C68: what acceptance says about the committed columns
-/

namespace Verif.Props
open Polynomial Spec Proximity Finset

variable {F T Ch : Type} [Field F] [DecidableEq F] {env : Env F T}

/-- **C68**, the mathematics: columns are committed, after the challenges `ch` of the auxiliary trace were drawn, for
which no polynomials of degree at most the trace length `2^a` that agree with them at all but `R` points of the
extended domain have values on the trace domain that satisfy the AIR. The verifier then draws the coefficients of
the constraints (first those of the boundary constraints, `α` before `β`, then those of the transition
constraints); the prover commits to the two halves of the composition polynomial, which may be any words; the
verifier draws the point `z`; the prover claims the values there, and the verifier checks them; the verifier draws
the coefficients of the DEEP values, and FRI is played on the DEEP values of the committed words. Whatever the prover
does, either the check of the claims fails, or, when none of the draws is one of the exceptions, whose number is
bounded for every draw, more than `R` of the `2^(a+b)` queries fail. -/
theorem C68_stark_sound {ta : TwoAdic F} {air : Air F Ch} {a b : Nat} (S : Setting air a b) {d : Domain F}
    (hd : Domain.new ta air = .ok d) {w : F} (hw : ta.root (a + b) = some w) {ch : Ch}
    {cs : List (MvPolynomial (Nat × Nat) F)} (hc : PolynomialConstraints air ch cs)
    (hcs : cs.length = air.context.numTransitionConstraints)
    {boundary : List (BoundaryConstraint F)} (hb : air.boundaryConstraints ch = .ok boundary)
    (hbc : ∀ c ∈ boundary, c.col < air.context.traceColumns ∧ c.step < 2 ^ a)
    {cols : List (Nat → F)} (hcols : cols.length = air.context.traceColumns)
    {R m : Nat} (hR : DecodingRadius a b R m)
    (hno : ¬ ∃ polys, Decodes (2 ^ (a + b)) (fun s => w ^ s * (air.context.proofOptions.cosetOffset : F))
        (2 ^ a + 1) R cols polys ∧
      Satisfies air (d.traceRootsOfUnity.map fun x => polys.map fun p => p.eval x) polys.length ch) :
    AllButDraws 1 boundary.length fun αB => AllButDraws 1 boundary.length fun βB =>
    AllButDraws 1 air.context.numTransitionConstraints fun αT =>
    AllButDraws 1 air.context.numTransitionConstraints fun βT =>
    ∀ even odd : Nat → F, AllBut (4 * 2 ^ a + 3 * 2 ^ (a + b)) fun z =>
    ∀ proof : StarkProof F, proof.traceOodFrameEvaluations.rowWidth = air.context.traceColumns →
      proof.traceOodFrameEvaluations.data.length = air.context.transitionOffsets.length * air.context.traceColumns →
      step2 air proof d (challengesOf ch αB βB αT βT z 0 0 []) = .ok true →
    AllBut m fun γe => AllBut m fun γo =>
    AllButDraws m (air.context.traceColumns * air.context.transitionOffsets.length) fun γ =>
    ∀ P : FriStrategy F, AllButDraws m a fun ζ =>
    ∃ failing : Finset Nat, R < failing.card ∧ ∀ s ∈ failing, s < 2 ^ (a + b) ∧
      ¬ (P.layer [] s = deepWord proof (challengesOf ch αB βB αT βT z γe γo
            (coeffRows air.context.transitionOffsets.length air.context.traceColumns γ)) d.tracePrimitiveRoot
            (fun s => w ^ s * (air.context.proofOptions.cosetOffset : F)) cols even odd s ∧
          P.Passes a b (air.context.proofOptions.cosetOffset : F) w ζ s) := by
  obtain ⟨g, w', D⟩ := domain_new S.rows S.length S.blowup hd
  obtain rfl : w = w' := Option.some.inj (hw.symm.trans D.hw)
  rw [D.tracePrimitiveRoot]
  have ha := S.rows
  have hu := hR.unique
  have hprim : IsPrimitiveRoot w (2 ^ (a + b)) := ta.primitive _ _ (by omega) hw
  have hx := domain_injOn D S.offset
  have h2 : (2 : F) ≠ 0 := two_ne_zero_of_root (by omega) hw
  have hpos : 0 < 2 ^ a := by positivity
  -- the coefficients of the constraints
  have hcoef : AllButDraws 1 boundary.length fun αB => AllButDraws 1 boundary.length fun βB =>
      AllButDraws 1 air.context.numTransitionConstraints fun αT =>
      AllButDraws 1 air.context.numTransitionConstraints fun βT =>
      ∀ polys, Decodes (2 ^ (a + b)) (fun s => w ^ s * (air.context.proofOptions.cosetOffset : F)) (2 ^ a + 1) R
        cols polys → ∃ i < 2 ^ a, combinedAtRow air g polys boundary
          (constraintsAt cs polys air.context.transitionOffsets g (g ^ i)) (αB.zip βB) (αT.zip βT) i ≠ 0 := by
    by_cases hex : ∃ polys, Decodes (2 ^ (a + b)) (fun s => w ^ s * (air.context.proofOptions.cosetOffset : F))
        (2 ^ a + 1) R cols polys
    · obtain ⟨polys, hp⟩ := hex
      have hpl : polys.length = air.context.traceColumns := hp.length.trans hcols
      obtain ⟨i, hi, hne⟩ := unsat_row D S.fits S.length hc hcs hpl hb (by rw [hpl]; exact hbc)
        fun hs => hno ⟨polys, hp, hs⟩
      have hnt : (transitionWeights air g (constraintsAt cs polys air.context.transitionOffsets g (g ^ i)) i).length
          = air.context.numTransitionConstraints := by
        simp [transitionWeights, constraintsAt, hcs, S.fits.degrees_len, S.fits.exemptions_len]
      refine AllButDraws.mono le_rfl _ (row_draws air g polys boundary _ i hnt hne) fun αB _ h => ?_
      refine AllButDraws.mono le_rfl _ h fun βB _ h => ?_
      refine AllButDraws.mono le_rfl _ h fun αT _ h => ?_
      refine AllButDraws.mono le_rfl _ h fun βT _ h => ?_
      intro polys' hp'
      obtain rfl := decodes_unique hx (by omega) (by omega) hp hp'
      exact ⟨i, hi, h⟩
    · exact draws_true _ fun _ _ => draws_true _ fun _ _ => draws_true _ fun _ _ => draws_true _ fun _ _ =>
        fun polys hp => absurd ⟨polys, hp⟩ hex
  refine AllButDraws.mono le_rfl _ hcoef fun αB _ h => ?_
  refine AllButDraws.mono le_rfl _ h fun βB _ h => ?_
  refine AllButDraws.mono le_rfl _ h fun αT _ h => ?_
  refine AllButDraws.mono le_rfl _ h fun βT _ h => ?_
  intro even odd
  refine AllBut.mono le_rfl (ood_points D S.offset S.fits ha S.length hc hcols hb
    (fun c hcm => by rw [hcols]; exact (hbc c hcm).1) (by omega) h even odd) fun z hz => ?_
  intro proof e1 e2 e3
  have hfar := hz proof e1 e2 e3
  have hfar0 : ¬ JointNear (2 ^ (a + b)) (fun s => w ^ s * (air.context.proofOptions.cosetOffset : F))
      ((fun _ => 0) :: quotients proof z g (fun s => w ^ s * (air.context.proofOptions.cosetOffset : F)) cols
        air.context.transitionOffsets.length even odd) (2 ^ a) R :=
    fun hj => hfar (jointNear_zero (by omega) hj)
  have hdraws := combine_draws hx hpos (by omega) hR.gap _ _ hfar0
  have hql : (quotients proof z g (fun s => w ^ s * (air.context.proofOptions.cosetOffset : F)) cols
      air.context.transitionOffsets.length even odd).length
      = air.context.traceColumns * air.context.transitionOffsets.length + 1 + 1 := by
    simp [quotients, hcols]
  rw [hql] at hdraws
  refine AllBut.mono le_rfl hdraws fun γe h => ?_
  refine AllBut.mono le_rfl h fun γo h => ?_
  refine AllButDraws.mono le_rfl _ h fun γ hγ h => ?_
  intro P
  rw [← hcols, deepWord_eq S.fits.offsets_pos (by rw [e1, hcols]) (by rw [hcols]; exact S.fits.columns_pos)
    (by rw [e2, hcols]) (by rw [hγ, hcols])]
  exact C67_fri_sound P _ hprim S.offset h2 ha hR.gap h

/-- **C68**, as an error bound: over a finite field and with the draws uniform, the probability that the prover
satisfies the verifier is at most the sum of the exceptions of all the draws over the size of the field, and the
probability that `q` queries out of `2^(a+b)` miss `R + 1` of them. -/
theorem C68_stark_error [Fintype F] {ta : TwoAdic F} {air : Air F Ch} {a b : Nat} (S : Setting air a b)
    {d : Domain F} (hd : Domain.new ta air = .ok d) {w : F} (hw : ta.root (a + b) = some w) {ch : Ch}
    {cs : List (MvPolynomial (Nat × Nat) F)} (hc : PolynomialConstraints air ch cs)
    (hcs : cs.length = air.context.numTransitionConstraints)
    {boundary : List (BoundaryConstraint F)} (hb : air.boundaryConstraints ch = .ok boundary)
    (hbc : ∀ c ∈ boundary, c.col < air.context.traceColumns ∧ c.step < 2 ^ a)
    {cols : List (Nat → F)} (hcols : cols.length = air.context.traceColumns)
    {R m : Nat} (hR : DecodingRadius a b R m)
    (hno : ¬ ∃ polys, Decodes (2 ^ (a + b)) (fun s => w ^ s * (air.context.proofOptions.cosetOffset : F))
        (2 ^ a + 1) R cols polys ∧
      Satisfies air (d.traceRootsOfUnity.map fun x => polys.map fun p => p.eval x) polys.length ch)
    (P : StarkStrategy F) (q : Nat) :
    probability (Draws F boundary.length air.context.numTransitionConstraints
        (air.context.traceColumns * air.context.transitionOffsets.length) a q (2 ^ (a + b)))
      (P.Wins air d a b w ch cols)
    ≤ (2 * boundary.length + 2 * air.context.numTransitionConstraints + (4 * 2 ^ a + 3 * 2 ^ (a + b))
        + (2 + air.context.traceColumns * air.context.transitionOffsets.length + a) * m) / Fintype.card F
      + (1 - (R + 1) / 2 ^ (a + b)) ^ q := by
  have hbase : (0 : ℚ) ≤ (1 - (R + 1) / 2 ^ (a + b)) ^ q := by
    refine pow_nonneg (sub_nonneg.mpr (div_le_one_of_le₀ ?_ (by positivity))) q
    exact_mod_cast (by have : 0 < 2 ^ a := by positivity
                       have := hR.unique
                       omega : R + 1 ≤ 2 ^ (a + b))
  have hne : Nonempty (Fin (2 ^ (a + b))) := ⟨⟨0, by positivity⟩⟩
  have hF : (0 : ℚ) ≤ 1 / Fintype.card F := by positivity
  set N : Nat := 2 ^ (a + b) with hN
  set nb := boundary.length with hnb
  set nt := air.context.numTransitionConstraints with hnt
  set k := air.context.traceColumns * air.context.transitionOffsets.length with hk
  have H := C68_stark_sound S hd hw hc hcs hb hbc hcols hR hno
  set Q : ℚ := (1 - (R + 1) / 2 ^ (a + b)) ^ q with hQ
  set f : ℚ := (Fintype.card F : ℚ) with hf
  have e : ((2 * (nb : ℚ) + 2 * nt + (4 * 2 ^ a + 3 * 2 ^ (a + b)) + (2 + (air.context.traceColumns : ℚ) * air.context.transitionOffsets.length + a) * m) / f + Q)
      = nb * (1 : Nat) / f + (nb * (1 : Nat) / f + (nt * (1 : Nat) / f + (nt * (1 : Nat) / f +
        (((4 * 2 ^ a + 3 * N : Nat) : ℚ) / f + ((m : ℚ) / f + ((m : ℚ) / f + ((k : ℚ) * m / f
          + (a * m / f + Q)))))))) := by
    rw [hN, hk]
    push_cast
    ring
  rw [e]
  refine probability_step (probability_allButDraws H) (fun αB H => ?_) (by positivity)
  refine probability_step (probability_allButDraws H) (fun βB H => ?_) (by positivity)
  refine probability_step (probability_allButDraws H) (fun αT H => ?_) (by positivity)
  refine probability_step (probability_allButDraws H) (fun βT H => ?_) (by positivity)
  have H := H (P.halves (List.ofFn αB) (List.ofFn βB) (List.ofFn αT) (List.ofFn βT)).1
    (P.halves (List.ofFn αB) (List.ofFn βB) (List.ofFn αT) (List.ofFn βT)).2
  refine probability_step (probability_allBut H) (fun z H => ?_) (by positivity)
  by_cases hcl : (P.claims (List.ofFn αB) (List.ofFn βB) (List.ofFn αT) (List.ofFn βT) z).traceOodFrameEvaluations.rowWidth
      = air.context.traceColumns ∧
      (P.claims (List.ofFn αB) (List.ofFn βB) (List.ofFn αT) (List.ofFn βT) z).traceOodFrameEvaluations.data.length
        = air.context.transitionOffsets.length * air.context.traceColumns ∧
      step2 air (P.claims (List.ofFn αB) (List.ofFn βB) (List.ofFn αT) (List.ofFn βT) z) d
        (challengesOf ch (List.ofFn αB) (List.ofFn βB) (List.ofFn αT) (List.ofFn βT) z 0 0 []) = .ok true
  · have H := H _ hcl.1 hcl.2.1 hcl.2.2
    refine probability_step (probability_allBut H) (fun γe H => ?_) (by positivity)
    refine probability_step (probability_allBut H) (fun γo H => ?_) (by positivity)
    refine probability_step (probability_allButDraws H) (fun γ H => ?_) (by positivity)
    have H := H (P.fri (List.ofFn αB) (List.ofFn βB) (List.ofFn αT) (List.ofFn βT) z γe γo (List.ofFn γ))
    refine probability_step (probability_allButDraws H) (fun ζ H => ?_) hbase
    obtain ⟨failing, h1, h2⟩ := H
    refine le_trans (probability_mono fun ι hι => hι.2.2.2) ?_
    have := probability_queries (q := q) h1 h2
    push_cast at this
    exact this
  · refine le_trans (le_of_eq ?_) (show (0 : ℚ) ≤ _ by positivity)
    classical
    rw [probability_eq, Finset.filter_eq_empty_iff.mpr]
    · simp
    · rintro ⟨γe, γo, γ, ζ, ι⟩ - hwin
      exact hcl ⟨hwin.1, hwin.2.1, hwin.2.2.1⟩

omit [DecidableEq F] in
/-- The rows of coefficients the verifier draws are cut from the list of all of them. -/
theorem sampleRows_coeffRows (k m : Nat) (t : T) :
    (sampleRows env k m t).1 = coeffRows k m (env.samples (k * m) t).1 := by
  induction m generalizing t with
  | zero => rfl
  | succ m ih =>
    have hl := samples_length (env := env) k t
    rw [show k * (m + 1) = k + k * m by ring, samples_add]
    simp only [sampleRows, coeffRows, ih]
    rw [List.take_append_of_le_length hl.ge, List.take_of_length_le hl.le, List.drop_append_of_le_length hl.ge,
      List.drop_of_length_le hl.le, List.nil_append]

/-- The challenges of the first step as the draws of the game. -/
theorem step1_draws {air : Air F Ch} {proof : StarkProof F} {d : Domain F} {t t' : T} {c : Challenges F Ch}
    (h : step1 env air proof d t = .ok (c, t')) : ∃ boundary αB βB αT βT γ,
      air.boundaryConstraints c.rapChallenges = .ok boundary ∧
      αB.length = boundary.length ∧ βB.length = boundary.length ∧
      αT.length = air.context.numTransitionConstraints ∧ βT.length = air.context.numTransitionConstraints ∧
      γ.length = air.context.traceColumns * air.context.transitionOffsets.length ∧
      c = { challengesOf c.rapChallenges αB βB αT βT c.z c.gammaEven c.gammaOdd
              (coeffRows air.context.transitionOffsets.length air.context.traceColumns γ) with
            zetas := c.zetas, iotas := c.iotas, leadingZerosCount := c.leadingZerosCount } := by
  unfold step1 at h
  simp only [Outcome.bind_eq_ok, Outcome.pure_eq, Outcome.ok.injEq, Prod.mk.injEq] at h
  obtain ⟨root0, -, boundary, hbd, ⟨z, tz⟩, -, t7, -, ⟨io, t13⟩, -, rfl, -⟩ := h
  exact ⟨boundary, _, _, _, _, _, hbd, samples_length _ _, samples_length _ _, samples_length _ _,
    samples_length _ _, (samples_length _ _).trans (Nat.mul_comm _ _), by
      rw [← sampleRows_coeffRows]
      rfl⟩

/-- **C68**, the code: in an accepted proof with the shape of an honest one, whose layer roots and whose root of the
composition polynomial commit to lists of values, and whose openings of the trace have the values of the columns
`cols`, the claims pass the check of the game of `C68_stark_error`, with the challenges that the verifier draws, and
for every query the first committed layer has the DEEP value of the columns and of the committed halves, and the
folds are right, or the proof exhibits a collision.
Missing: the shape and the values of the openings of the trace, which the verifier does not check
(`C45_unused_data_accepted`, `C48_trace_paths_ignored`). -/
theorem C68_accepted_wins_partial {PI : Type} {new : AirNew F Ch PI} {pi : PI}
    {options : ProofOptions} {proof : StarkProof F} {air : Air F Ch}
    (hair : new proof.traceLength pi options = .ok air) {a b : Nat} (S : Setting air a b)
    (h : verify env new proof pi options = .ok true) {roots queries : Nat}
    (shape : ProofShape proof a b air.context.traceColumns roots air.context.transitionOffsets.length queries)
    {layers : Nat → List F} {trees : Nat → Merkle.Tree} (hl : CommitsLayers env proof a b layers trees)
    {even odd : Nat → F} {tree : Merkle.Tree} (hh : CommitsHalves env proof a b even odd tree)
    {cols : List (Nat → F)}
    (htr : ∀ d c t, Domain.new env.ta air = .ok d → step1 env air proof d env.tr.init = .ok (c, t) →
      ∀ (i : Nat) iota o, c.iotas[i]? = some iota → proof.deepPolyOpenings[i]? = some o →
        o.ldeTraceEvaluations = cols.map fun f => f iota) :
    ∃ d c t w boundary αB βB αT βT γ, Domain.new env.ta air = .ok d ∧
      step1 env air proof d env.tr.init = .ok (c, t) ∧ env.ta.root (a + b) = some w ∧
      air.boundaryConstraints c.rapChallenges = .ok boundary ∧
      αB.length = boundary.length ∧ βB.length = boundary.length ∧
      αT.length = air.context.numTransitionConstraints ∧ βT.length = air.context.numTransitionConstraints ∧
      γ.length = air.context.traceColumns * air.context.transitionOffsets.length ∧ c.zetas.length = a ∧
      c = { challengesOf c.rapChallenges αB βB αT βT c.z c.gammaEven c.gammaOdd
              (coeffRows air.context.transitionOffsets.length air.context.traceColumns γ) with
            zetas := c.zetas, iotas := c.iotas, leadingZerosCount := c.leadingZerosCount } ∧
      proof.traceOodFrameEvaluations.rowWidth = air.context.traceColumns ∧
      proof.traceOodFrameEvaluations.data.length
        = air.context.transitionOffsets.length * air.context.traceColumns ∧
      step2 air proof d c = .ok true ∧
      c.iotas.length = air.context.proofOptions.friNumberOfQueries ∧
      ∀ (i : Nat) iota q o, c.iotas[i]? = some iota → proof.queryList[i]? = some q →
        proof.deepPolyOpenings[i]? = some o → iota < 2 ^ (a + b) ∧
        (((layers 0).getD iota 0 = deepWord proof c d.tracePrimitiveRoot
              (fun s => w ^ s * (air.context.proofOptions.cosetOffset : F)) cols even odd iota ∧
            QueryPasses a b (air.context.proofOptions.cosetOffset : F) w (fun j s => (layers j).getD s 0)
              proof.friLastValue (fun j => c.zetas.getD j 0) iota) ∨
          QueryCollides env a b layers trees iota q ∨ OpeningCollides env even odd tree iota o) := by
  obtain ⟨d, c, t, w, h1, h2, hw, hz, hpass⟩ := C67_accepted_queries_pass_partial hair S h shape hl
  obtain ⟨-, air', d', c', t', e1, e2, e3, -, hs2, -, -⟩ := verify_true h
  obtain rfl : air = air' := Outcome.ok.inj (hair.symm.trans e1)
  obtain rfl : d = d' := Outcome.ok.inj (h1.symm.trans e2)
  obtain ⟨rfl, rfl⟩ : c = c' ∧ t = t' := by simpa using Outcome.ok.inj (h2.symm.trans e3)
  obtain ⟨d', c', t', g, w', e4, e5, hg, e6, -, -, hio, -, -, -, hop⟩ := C45_accepted_checks_partial hair S h
  obtain rfl : d = d' := Outcome.ok.inj (h1.symm.trans e4)
  obtain ⟨rfl, rfl⟩ : c = c' ∧ t = t' := by simpa using Outcome.ok.inj (h2.symm.trans e5)
  obtain rfl : w = w' := Option.some.inj (hw.symm.trans e6)
  obtain ⟨g', w', D⟩ := domain_new S.rows S.length S.blowup h1
  obtain rfl : g = g' := Option.some.inj (hg.symm.trans D.hg)
  obtain ⟨-, -, -, -, hiol, -⟩ := step1_inv h2
  obtain ⟨boundary, αB, βB, αT, βT, γ, hbd, hl1, hl2, hl3, hl4, hl5, hc⟩ := step1_draws h2
  refine ⟨d, c, t, w, boundary, αB, βB, αT, βT, γ, h1, h2, hw, hbd, hl1, hl2, hl3, hl4, hl5, hz, hc,
    shape.frameWidth, shape.frameData, hs2, hiol, ?_⟩
  intro i iota q o hi hq ho
  have hlt := hio iota (List.mem_of_getElem? hi)
  refine ⟨hlt, ?_⟩
  rcases hpass i q iota hq hi with ⟨hv, hp⟩ | hcol
  · obtain ⟨q', hq', O⟩ := hop i iota o hi ho
    obtain rfl : q = q' := Option.some.inj (hq.symm.trans hq')
    obtain ⟨u, own, hu, hown, he⟩ := Props.opening_of_tree _ _ (by simp) hh.build
      (shape.opening o (List.mem_of_getElem? ho)).1 (by rw [← hh.root]; exact O.opened)
    rw [Nat.mod_eq_of_lt hlt] at hu hown
    obtain rfl : [even iota, odd iota] = u := by
      simpa [List.getElem?_range hlt] using hu
    rcases he with he | he
    · left
      refine ⟨?_, hp⟩
      obtain ⟨he1, he2⟩ : o.ldeCompositionPolyEvenEvaluation = even iota ∧
          o.ldeCompositionPolyOddEvaluation = odd iota := by simpa using he
      have hval := O.value
      rw [hv] at hval
      rw [List.getD_eq_getElem?_getD, hval, Option.getD_some, D.tracePrimitiveRoot]
      unfold deepWord deepValue openingAt
      rw [he1, he2, htr d c t h1 h2 i iota o hi ho]
    · exact Or.inr (Or.inr ⟨own, hown, he⟩)
  · exact Or.inr (Or.inl hcol)

open Examples ExampleAirs TraceTable in
/-- The hypotheses of `C68_stark_sound` and `C68_stark_error`: for the AIR of the Fibonacci sequence over the field
with 17 elements, with 4 rows extended to 8, the two columns of zeros decode (`R = 1` is allowed), but not to a
sequence that starts with 1. -/
example : ∃ d w, Domain.new env17.ta air17 = .ok d ∧ env17.ta.root (2 + 1) = some w ∧ Setting air17 2 1 ∧
    (∃ cs, PolynomialConstraints air17 () cs ∧ cs.length = air17.context.numTransitionConstraints) ∧
    (∃ boundary, air17.boundaryConstraints () = .ok boundary ∧
      ∀ c ∈ boundary, c.col < air17.context.traceColumns ∧ c.step < 2 ^ 2) ∧
    3 * 1 + 2 ^ 2 + 1 ≤ 2 ^ (2 + 1) ∧
    ¬ ∃ polys, Decodes (2 ^ (2 + 1)) (fun s => w ^ s * (air17.context.proofOptions.cosetOffset : ZMod 17))
        (2 ^ 2 + 1) 1 [fun _ => 0, fun _ => 0] polys ∧
      Satisfies air17 (d.traceRootsOfUnity.map fun x => polys.map fun p => p.eval x) polys.length () := by
  obtain ⟨proof, hp, hv⟩ := honest17
  obtain ⟨d, c, t, r1, r2, deep, layers, ps, hd, hs, U⟩ :=
    C49_same_challenges (env := env17) (trace := TraceTable.ofRows rows17 2) (a := 2) (b := 1)
      (air := air17) rfl (by norm_num) rfl rfl hp
  obtain ⟨g, w, D⟩ := domain_new setting17.rows setting17.length setting17.blowup hd
  refine ⟨d, w, hd, D.hw, setting17, ⟨_, fibonacci2_polynomial _ _ _ air17_eq _, rfl⟩, ⟨_, rfl, by decide⟩,
    by norm_num, ?_⟩
  rintro ⟨polys, hdec, hsat⟩
  have hzero : Decodes (2 ^ (2 + 1)) (fun s => w ^ s * (air17.context.proofOptions.cosetOffset : ZMod 17))
      (2 ^ 2 + 1) 1 [fun _ => 0, fun _ => 0] [0, 0] := by
    refine ⟨rfl, by simpa using WithBot.bot_lt_coe (5 : Nat), Finset.range (2 ^ (2 + 1)), by simp, fun s hs => ⟨Finset.mem_range.mp hs, ?_⟩⟩
    intro j f p hf hp
    have hf' : f = fun _ => 0 := by simpa using List.mem_of_getElem? hf
    have hp' : p = 0 := by simpa using List.mem_of_getElem? hp
    rw [hf', hp', eval_zero]
  obtain rfl := decodes_unique (domain_injOn D setting17.offset) (by norm_num) (by norm_num) hdec hzero
  obtain ⟨cs, hcs, hb⟩ := hsat.boundary
  obtain rfl := Outcome.ok.inj hcs
  obtain ⟨row, hrow, hval⟩ := hb ⟨0, 0, 1⟩ (by simp)
  obtain ⟨x, -, rfl⟩ := List.mem_map.mp (List.mem_of_getElem? hrow)
  simp at hval

open Examples ExampleAirs TraceTable in
/-- The hypotheses of `C68_accepted_wins_partial` are met by an honest proof. -/
example : ∃ (proof : StarkProof (ZMod 17)) (values : Nat → List (ZMod 17)) (trees : Nat → Merkle.Tree)
    (even odd : Nat → ZMod 17) (tree : Merkle.Tree) (cols : List (Nat → ZMod 17)),
    fibonacci2 proof.traceLength ⟨1, 1⟩ (options17 3) = .ok air17 ∧ Setting air17 2 1 ∧
    verify env17 fibonacci2 proof ⟨1, 1⟩ (options17 3) = .ok true ∧
    ProofShape proof 2 1 air17.context.traceColumns 1 air17.context.transitionOffsets.length
      air17.context.proofOptions.friNumberOfQueries ∧ CommitsLayers env17 proof 2 1 values trees ∧
    CommitsHalves env17 proof 2 1 even odd tree ∧
    ∀ d c t, Domain.new env17.ta air17 = .ok d → step1 env17 air17 proof d env17.tr.init = .ok (c, t) →
      ∀ (i : Nat) iota o, c.iotas[i]? = some iota → proof.deepPolyOpenings[i]? = some o →
        o.ldeTraceEvaluations = cols.map fun f => f iota := by
  obtain ⟨proof, values, trees, d, c, t, g, w, full, H, r1, r2, deep, layers, ps, hd, hs, D, U, R1, R2, hrest⟩ :=
    honest17_run
  obtain ⟨h1, h2, h3, h4, h5⟩ := hrest
  refine ⟨proof, values, trees, _, _, r2.compositionPolyMerkleTree,
    r1.tracePolys.map fun p s => p.eval (w ^ s * (air17.context.proofOptions.cosetOffset : ZMod 17)),
    h1, h2, h3, h4, h5, ⟨R2.tree, by rw [U.compositionRoot, R2.root]⟩, ?_⟩
  intro d' c' t' hd' hs' i iota o hi ho
  obtain rfl : d = d' := Outcome.ok.inj (hd.symm.trans hd')
  obtain ⟨rfl, rfl⟩ : c = c' ∧ t = t' := by simpa using Outcome.ok.inj (hs.symm.trans hs')
  obtain ⟨-, -, -, -, -, hlt⟩ := step1_inv hs
  rw [D.ldeRootOrder] at hlt
  obtain ⟨o', ho1, -, -, ho2, -⟩ := openDeepAt_ok D R1 R2 (hlt iota (List.mem_of_getElem? hi))
  have := mapOutcome_getElem? U.openings hi
  rw [ho1, ho] at this
  obtain rfl : o' = o := by simpa using this
  rw [ho2, List.map_map]
  rfl

end Verif.Props
