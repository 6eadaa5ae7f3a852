import Verif.Lemmas.Unsatisfied
import Verif.Props.Verdict
import Verif.Props.OutOfDomain
import Verif.Props.NoPanic
import Verif.Props.CairoHonest
import Verif.Lemmas.CairoDeclared
import Verif.Props.Debug
import Verif.Props.CairoPermutation

/-!
# C79: the fate of the proof of a trace that does not satisfy the constraints
-/

namespace Verif.Props
open Polynomial Verif.Spec TraceTable CairoAir
variable {F T Ch : Type} [Field F] [DecidableEq F]

/-- **C79**: every proof the prover makes is well formed, whether the trace satisfies the constraints or not, so that
the verifier's verdict on it is the one of C75. -/
theorem C79_wellFormed {env : Env F T} {PI : Type} {new : AirNew F Ch PI} {pi : PI} {options : ProofOptions}
    {air : Air F Ch} {a b : Nat} (S : Setting air a b) (hnew : new (2 ^ a) pi options = .ok air)
    {rows : List (List F)} {k : Nat} (hk : 0 < k) (hrows : rows.length = 2 ^ a) (hr : ∀ r ∈ rows, r.length = k)
    (hj : ∀ ch aux, air.buildAuxiliaryTrace (ofRows rows k) ch = .ok aux → ∃ full, JoinedRows air rows k aux full)
    {proof : StarkProof F} (hproof : prove env new (ofRows rows k) pi options = .ok proof) :
    proof.traceLength = 2 ^ a ∧ WellFormed air proof (a + b) := by
  have hnr : (ofRows rows k).nRows = 2 ^ a := by rw [nRows_ofRows _ _ hk hr, hrows]
  obtain ⟨d, c, t, r1, r2, deep, layers, ps, hd, hs, U⟩ :=
    C49_same_challenges (by rw [hnr]; exact hnew) S.rows S.length S.blowup hproof
  obtain ⟨g, w, D⟩ := domain_new S.rows S.length S.blowup hd
  obtain ⟨t1, hr1⟩ := U.first
  obtain ⟨root0, rest, hroots, -, -, aux, haux, -⟩ := round1_ok D hk hrows hr hr1
  obtain ⟨full, hj⟩ := hj _ _ haux
  obtain ⟨R1, hplen⟩ := joined_round1 D hk hrows hr hr1 haux hj
  exact ⟨by rw [U.traceLength, S.length],
    wellFormed_run D R1 hplen S.fits.columns_pos (by rw [hroots]; simp) U⟩

/-- **C79**: the proof of a trace that does not satisfy the AIR is rejected, up to two exceptions that are fixed before
the coefficients and the out-of-domain point are drawn: `lucky` coefficients, which are determined by all the others,
and for each choice of coefficients fewer points than the trace has rows. -/
theorem C79_unsatisfying_rejected {PI : Type} {new : AirNew F Ch PI} {pi : PI} {options : ProofOptions}
    {air : Air F Ch} {a b : Nat} (S : Setting air a b) (hnew : new (2 ^ a) pi options = .ok air)
    {rows : List (List F)} {k : Nat} (hk : 0 < k) (hrows : rows.length = 2 ^ a) (hr : ∀ r ∈ rows, r.length = k)
    {ta : TwoAdic F} {d : Domain F} (hd : Domain.new ta air = .ok d)
    {ch : Ch} {cs : List (MvPolynomial (Nat × Nat) F)} (hc : PolynomialConstraints air ch cs)
    (hcs : cs.length = air.context.numTransitionConstraints)
    {aux : TraceTable F} (haux : air.buildAuxiliaryTrace (ofRows rows k) ch = .ok aux)
    {full : List (List F)} (hj : JoinedRows air rows k aux full)
    {boundary : List (BoundaryConstraint F)} (hb : air.boundaryConstraints ch = .ok boundary)
    (hcols : ∀ c ∈ boundary, c.col < air.context.traceColumns ∧ c.step < 2 ^ a)
    (hsat : ¬ Satisfies air full air.context.traceColumns ch) :
    MostlyRejected ta new pi options air a b (ofRows rows k) ch boundary.length := by
  obtain ⟨g, w, D⟩ := domain_new S.rows S.length S.blowup hd
  obtain ⟨hl, hw⟩ := joinedRows_shape hr hj
  rw [hrows] at hl
  set polys := columnPolys full g (2 ^ a) air.context.traceColumns with hpolys
  have hp : polys.length = air.context.traceColumns := by simp [hpolys, columnPolys]
  have hdeg : ∀ p ∈ polys, p.degree < (2 ^ a : Nat) := columnPolys_degree D _ _
  have hpos : 0 < 2 ^ a := by positivity
  refine ⟨fun bC tC => errorPoly air a b g w polys boundary cs bC tC = 0,
    fun bC tC => if (air.context.proofOptions.cosetOffset : F) ^ 2 ^ (a + b) = 1 then ∅ else
      (errorPoly air a b g w polys boundary cs bC tC).roots.toFinset \ ((Finset.range (2 ^ (a + b))).image
        fun i => w ^ i * (air.context.proofOptions.cosetOffset : F)), ?_, fun bC tC => ?_, ?_⟩
  · have := unsatisfying_unique S D hc hcs hp hb (by rwa [hp])
      (by rwa [columnPolys_values D hl hw, hp])
      (P := fun bC tC => errorPoly air a b g w polys boundary cs bC tC = 0) (fun bC tC h0 i hi => ?_)
    · rw [hcs] at this
      exact this
    · rw [← combinedPoly_eval_row _ _ _ (by rw [S.length]; exact hi)]
      have h1 := congrArg (eval (g ^ i)) h0
      unfold errorPoly at h1
      simp only [eval_sub, eval_mul, eval_pow, eval_X, eval_one, eval_zero] at h1
      rwa [← pow_mul, Nat.mul_comm i, pow_mul g, D.g_primitive.pow_eq_one, one_pow, sub_self, zero_mul, sub_zero] at h1
  · split
    · simp
    · rename_i hN
      exact errorPoly_roots D S hN hc hdeg boundary bC tC
  · intro T env proof hta hproof g' w' boundary' x hg' hw' R hch
    dsimp only
    intro hlucky hbad hv
    subst hta
    revert hlucky hbad
    suffices hor : errorPoly air a b g w polys boundary cs ((x.alphaB.map env.ofDigest).zip (x.betaB.map env.ofDigest))
        ((x.alphaT.map env.ofDigest).zip (x.betaT.map env.ofDigest)) = 0 ∨ _ from
      fun h1 h2 => hor.elim h1 h2
    obtain rfl := Option.some.inj (D.hg.symm.trans hg')
    obtain rfl := Option.some.inj (D.hw.symm.trans hw')
    have hnr : (ofRows rows k).nRows = 2 ^ a := by rw [nRows_ofRows _ _ hk hr, hrows]
    obtain ⟨d', c, t, r1, r2, deep, layers, ps, hd', hs, U⟩ :=
      C49_same_challenges (by rw [hnr]; exact hnew) S.rows S.length S.blowup hproof
    obtain rfl := Outcome.ok.inj (hd.symm.trans hd')
    obtain ⟨t1, hr1⟩ := U.first
    obtain ⟨root0, rest, hroots, hrap, -⟩ := round1_ok D hk hrows hr hr1
    have hrap' : r1.rapChallenges = ch := by
      rw [hrap, replays_rap R (by rw [U.traceRoots, hroots])]
      exact hch
    obtain ⟨R1, hplen⟩ := joined_round1 D hk hrows hr hr1 (by rw [hrap']; exact haux) hj
    have W := wellFormed_run D R1 hplen S.fits.columns_pos (by rw [hroots]; simp) U
    obtain ⟨t', hs'⟩ := step1_of_replays D S.fits.columns_pos W R
    obtain ⟨rfl, rfl⟩ := Prod.mk.inj (Outcome.ok.inj (hs.symm.trans hs'))
    set c := x.challenges env air proof (a + b) with hcdef
    have hpeq : r1.tracePolys = polys := by rw [tracePolys_eq D R1, hplen]
    obtain ⟨hN, H, hH1, hH2, hH3, hH4⟩ := round2_values D S R1 hplen (by rw [hrap']; exact hc) (by rw [hrap']; exact hb)
      (fun c h => (hcols c h).1) U.second
    have hHeq : H = extendedPoly air a b g w polys boundary cs c.boundaryCoeffs c.transitionCoeffs := by
      refine Lagrange.eq_interpolate_of_eval_eq _ (coset_injOn (by have := S.rows; omega) D.hw S.offset) ?_ fun i hi => ?_
      · rw [Finset.card_range]; exact hH1
      · rw [hH4 i (Finset.mem_range.mp hi), hpeq]
    obtain ⟨-, air', d'', c'', t'', h1, h2, h3, -, h4, -⟩ := verify_true hv
    rw [U.traceLength, S.length, hnew] at h1
    obtain rfl := Outcome.ok.inj h1
    obtain rfl := Outcome.ok.inj (hd.symm.trans h2)
    obtain ⟨rfl, -⟩ := Prod.mk.inj (Outcome.ok.inj (hs.symm.trans h3))
    obtain ⟨hz1, hztr, -⟩ := step1_inv hs
    have hz : c.z ^ 2 ^ a ≠ 1 := (D.notMem_trace_iff _).mp hztr
    have hframe : (round3 air d r1 r2 c.z).traceOodEvaluations
        = frameRows polys air.context.transitionOffsets d.tracePrimitiveRoot c.z := by
      rw [← hpeq]
      simp only [round3, Frame.getTraceEvaluations, frameRows, List.map_map]
      rfl
    obtain ⟨-, hacc⟩ := oodAccepts_eq (even := r2.compositionPolyEven) (odd := r2.compositionPolyOdd) D S.fits S.length hc hp hb
      (by rw [hp]; exact fun c h => (hcols c h).1)
      ⟨proof, c, rfl, hch, rfl, rfl, by rw [U.frame, hframe, hpeq], U.evenOod, U.oddOod, h4⟩
    rw [hH2, hH3, ← evenOdd_eval, hHeq] at hacc
    have hE : (errorPoly air a b g w polys boundary cs c.boundaryCoeffs c.transitionCoeffs).eval c.z = 0 := by
      unfold errorPoly
      rw [eval_sub, eval_mul, hacc, combinedPoly_eval (by rw [S.length]; positivity)
        (by rw [S.length]; exact D.g_primitive) _ _ _ _ (by rw [S.length]; exact hz), S.length]
      simp
    by_cases h0 : errorPoly air a b g w polys boundary cs c.boundaryCoeffs c.transitionCoeffs = 0
    · exact .inl h0
    · right
      change c.z ∈ ite _ _ _
      rw [if_neg hN, Finset.mem_sdiff, Multiset.mem_toFinset]
      refine ⟨(mem_roots h0).mpr hE, fun hmem => hz1 ?_⟩
      obtain ⟨i, hi, hi'⟩ := Finset.mem_image.mp hmem
      rw [D.lde]
      exact List.mem_map.mpr ⟨i, by simpa using hi, hi'⟩

/-- **C79**: the verifier answers on every proof the prover makes, under the conditions of C55 on the AIR and the
sampling. -/
theorem C79_answered {env : Env F T} {PI : Type} {new : AirNew F Ch PI} {pi : PI} {options : ProofOptions}
    {air : Air F Ch} {a b : Nat} (S : Setting air a b) (hnew : new (2 ^ a) pi options = .ok air)
    (hopt : air.context.proofOptions = options) (hab : a + b < 64) (had : a + b < env.ta.adicity)
    (hsq : ¬ IsSquare (air.context.proofOptions.cosetOffset : F))
    (hc : ∀ ch, ∃ cs, PolynomialConstraints air ch cs)
    (hz : SamplingEnds env air)
    {rows : List (List F)} {k : Nat} (hk : 0 < k) (hrows : rows.length = 2 ^ a) (hr : ∀ r ∈ rows, r.length = k)
    (hj : ∀ ch aux, air.buildAuxiliaryTrace (ofRows rows k) ch = .ok aux → ∃ full, JoinedRows air rows k aux full)
    {proof : StarkProof F} (hproof : prove env new (ofRows rows k) pi options = .ok proof)
    (hb : ∀ root ∈ proof.ldeTraceMerkleRoots.head?,
      ∃ bcs, air.boundaryConstraints (challengesAfter env air root) = .ok bcs ∧
        ∀ c ∈ bcs, c.col < air.context.traceColumns) :
    verify env new proof pi options = .ok true ∨ verify env new proof pi options = .ok false := by
  obtain ⟨hl, W⟩ := C79_wellFormed S hnew hk hrows hr hj hproof
  exact C55_answers_partial (by rw [hl]; exact hnew) hopt S hab had hsq hc hb hz W

/-- A main trace of the width of the layout and its auxiliary trace, side by side. -/
theorem cairo_joined {pi : PublicInputs} {options : ProofOptions} {n : Nat} {main : List (List FE)}
    (hw : ∀ r ∈ main, r.length = 43 - builtinOffset (hasRcBuiltin pi)) {ch : RAPChallenges FE} {aux : List (List FE)}
    (haux : ExecTrace.buildAuxiliaryTrace pi main ch = .ok aux) :
    let k := 43 - builtinOffset (hasRcBuiltin pi)
    (air n pi options).buildAuxiliaryTrace (ofRows main k) ch = .ok ⟨aux.flatten, numberAuxiliaryRapColumns⟩ ∧
    JoinedRows (air n pi options) main k ⟨aux.flatten, numberAuxiliaryRapColumns⟩ (List.zipWith (· ++ ·) main aux) := by
  have hk : 0 < 43 - builtinOffset (hasRcBuiltin pi) := by cases hasRcBuiltin pi <;> decide
  obtain ⟨_, _, _, _, _, A⟩ := ExecTrace.buildAuxiliaryTrace_ok haux
  refine ⟨?_, .inr ⟨aux, by show 0 < 18; norm_num, rfl, A.len, A.width, ?_, rfl⟩⟩
  · show (do
      let aux ← ExecTrace.buildAuxiliaryTrace pi (tableRows (ofRows main (43 - builtinOffset (hasRcBuiltin pi)))) _
      pure (⟨aux.flatten, numberAuxiliaryRapColumns⟩ : TraceTable FE)) = _
    rw [tableRows_ofRows hk hw, haux]
    rfl
  · show _ + 18 = traceColumns _
    cases hasRcBuiltin pi <;> decide

/-- **C79** for Cairo: the proof of a main trace that the AIR does not accept together with the auxiliary trace for the
challenges `ch` is mostly rejected. -/
theorem C79_cairo_unsatisfying {pi : PublicInputs} {options : ProofOptions} {a b : Nat} (ha : 1 ≤ a) (hb1 : 1 ≤ b)
    (hab : a + b < 64) (hbl : options.blowupFactor.toNat = 2 ^ b) (hsq : ¬ IsSquare (options.cosetOffset : FE))
    {main : List (List FE)} (hlen : main.length = 2 ^ a)
    (hw : ∀ r ∈ main, r.length = 43 - builtinOffset (hasRcBuiltin pi)) (hsteps : pi.numSteps ≤ 2 ^ a)
    {ch : RAPChallenges FE} {aux : List (List FE)} (haux : ExecTrace.buildAuxiliaryTrace pi main ch = .ok aux)
    {boundary : List (BoundaryConstraint FE)} (hb : boundaryConstraints pi (2 ^ a) ch = .ok boundary)
    (hbad : ¬ Accepted pi options (List.zipWith (· ++ ·) main aux) ch) :
    MostlyRejected starkRoots CairoAir.new pi options (air (2 ^ a) pi options) a b
      ⟨main.flatten, 43 - builtinOffset (hasRcBuiltin pi)⟩ ch 8 := by
  have S := cairo_setting_of ha hb1 pi hbl hsq
  have hk : 0 < 43 - builtinOffset (hasRcBuiltin pi) := by cases hasRcBuiltin pi <;> decide
  obtain ⟨haux', hj⟩ := cairo_joined (n := 2 ^ a) (options := options) hw haux
  obtain ⟨d, hd⟩ := domain_exists (ta := starkRoots) S.rows S.length S.blowup hab (by show _ ≤ 192; omega)
  have h8 : boundary.length = 8 := by
    obtain ⟨-, -, _, _, -, -, -, rfl⟩ := boundaryConstraints_ok hb
    rfl
  have hD := declared (2 ^ a) pi options ch (by positivity) hsteps
  rw [← h8]
  refine C79_unsatisfying_rejected S rfl hk hlen hw hd (air_polynomial _ _ _ ch) ?_ haux' hj hb
    (fun c hc => (hD.boundary_in boundary hb c hc).symm) fun hs => ?_
  · rw [(constraintPolys_degrees _ _).length_eq]
    change _ = numTransitionConstraints _
    cases hasRcBuiltin pi <;> rfl
  · obtain ⟨_, _, _, _, _, A⟩ := ExecTrace.buildAuxiliaryTrace_ok haux
    have hfull : (List.zipWith (· ++ ·) main aux).length = 2 ^ a := by
      simp [A.len, hlen]
    refine hbad ⟨(joinedRows_shape hw hj).2, by rw [hfull]; exact hsteps, by rw [hfull]; exact hs⟩

/-- **C79** for Cairo, a changed range-check value: if in some row of the main trace the value of the range-check
builtin is not the number whose 16-bit limbs are in its eight columns, the proof of this trace is mostly rejected. -/
theorem C79_cairo_changed_value {pi : PublicInputs} {options : ProofOptions} {a b : Nat} (ha : 1 ≤ a) (hb1 : 1 ≤ b)
    (hab : a + b < 64) (hbl : options.blowupFactor.toNat = 2 ^ b) (hsq : ¬ IsSquare (options.cosetOffset : FE))
    (hrc : hasRcBuiltin pi = true)
    {main : List (List FE)} (hlen : main.length = 2 ^ a) (hw : ∀ r ∈ main, r.length = 43)
    (hsteps : pi.numSteps ≤ 2 ^ a)
    {ch : RAPChallenges FE} {aux : List (List FE)} (haux : ExecTrace.buildAuxiliaryTrace pi main ch = .ok aux)
    {boundary : List (BoundaryConstraint FE)} (hb : boundaryConstraints pi (2 ^ a) ch = .ok boundary)
    {i : Nat} (hi : i < main.length) (hne : cell main i RC_VALUE
      ≠ ((List.range 8).map fun k => cell main i (RC_0 + k) * 2 ^ (16 * k)).sum) :
    MostlyRejected starkRoots CairoAir.new pi options (air (2 ^ a) pi options) a b ⟨main.flatten, 43⟩ ch 8 := by
  have hw' : ∀ r ∈ main, r.length = 43 - builtinOffset (hasRcBuiltin pi) := by rw [hrc]; exact hw
  have := C79_cairo_unsatisfying ha hb1 hab hbl hsq hlen hw' hsteps haux hb fun hacc => hne ?_
  · rw [hrc] at this
    exact this
  obtain ⟨_, _, _, _, _, A⟩ := ExecTrace.buildAuxiliaryTrace_ok haux
  have hc : ∀ c < 43, cell (List.zipWith (· ++ ·) main aux) i c = cell main i c := fun c hc => by
    rw [ExecTrace.cell_full A.len hi, ExecTrace.fullRow_main hw hi hc]; rfl
  have h0 := hacc.parts.2.builtin hrc i (by simp [A.len, hi])
  have e : rangeCheckBuiltin (cell (List.zipWith (· ++ ·) main aux) i) =
      ((List.range 8).map fun k => cell main i (RC_0 + k) * 2 ^ (16 * k)).sum - cell main i RC_VALUE := by
    simp [rangeCheckBuiltin, List.range_succ, hc, RC_0, RC_VALUE]
    ring
  rw [e, sub_eq_zero] at h0
  exact h0.symm

open Examples ExampleAirs in
/-- The hypotheses are met: four rows that are not the Fibonacci sequence have a proof, which is well formed, and it is
mostly rejected. -/
example : let rows : List (List (ZMod 17)) := [[1, 1], [2, 3], [5, 8], [13, 5]]
    (∃ proof, prove env17 fibonacci2 (ofRows rows 2) ⟨1, 1⟩ (options17 3) = .ok proof ∧
      proof.traceLength = 2 ^ 2 ∧ WellFormed air17 proof (2 + 1) ∧
      (verify env17 fibonacci2 proof ⟨1, 1⟩ (options17 3) = .ok true ∨
        verify env17 fibonacci2 proof ⟨1, 1⟩ (options17 3) = .ok false)) ∧
    MostlyRejected env17.ta fibonacci2 ⟨1, 1⟩ (options17 3) air17 2 1 (ofRows rows 2) () 2 := by
  intro rows
  have hj : ∀ ch aux, air17.buildAuxiliaryTrace (ofRows rows 2) ch = .ok aux → ∃ full, JoinedRows air17 rows 2 aux full := by
    intro ch aux h
    obtain rfl := Outcome.ok.inj h
    exact ⟨rows, .inl ⟨rfl, rfl, rfl⟩⟩
  obtain ⟨proof, valid, hp, -, -⟩ := debug17 rows rfl (by decide)
  obtain ⟨hl, W⟩ := C79_wellFormed setting17 air17_eq (by norm_num) rfl (by decide) hj hp
  refine ⟨⟨proof, hp, hl, W, C79_answered setting17 air17_eq rfl (by norm_num) (by decide) (by decide +kernel)
    (fun ch => ⟨_, fibonacci2_polynomial _ _ _ air17_eq ch⟩) 
    (samplingEnds_of setting17 fun lde trace t h1 h2 => sampleZOod17 0 lde trace t (by rw [h1, h2]; norm_num))
    (by norm_num) rfl (by decide) hj hp (fun _ _ => ⟨_, rfl, by decide⟩)⟩, ?_⟩
  obtain ⟨d, hd⟩ := domain_exists (ta := env17.ta) setting17.rows setting17.length setting17.blowup (by norm_num)
    (by decide)
  refine C79_unsatisfying_rejected (k := 2) setting17 air17_eq (by norm_num) rfl (by decide) hd
    (fibonacci2_polynomial _ _ _ air17_eq ()) rfl rfl (.inl ⟨rfl, rfl, rfl⟩)
    (boundary := [⟨0, 0, 1⟩, ⟨1, 0, 1⟩]) rfl (by decide) fun hs => ?_
  have := (C54_fibonacci_two_columns (n := 2 ^ 2) air17_eq rfl (by norm_num) (by decide)).mp hs
  exact absurd (this 3 (by norm_num)) (by decide +kernel)

theorem three_nonsquare : ¬ IsSquare (ProofOptions.defaultTestOptions.cosetOffset : FE) := by
  exact_mod_cast three_not_square

theorem aux_apFinal (pi : PublicInputs) (ap : FE) (main : List (List FE)) (ch : RAPChallenges FE) :
    ExecTrace.buildAuxiliaryTrace { pi with apFinal := ap } main ch = ExecTrace.buildAuxiliaryTrace pi main ch := rfl

open Examples in
/-- The hypotheses are met: the run of `simple_program` claimed to end with another `ap`. -/
example : MostlyRejected starkRoots CairoAir.new { main0.2 with apFinal := main0.2.apFinal + 1 }
    ProofOptions.defaultTestOptions (air (2 ^ 3) { main0.2 with apFinal := main0.2.apFinal + 1 }
      ProofOptions.defaultTestOptions) 3 2 ⟨main0.1.flatten, 34⟩ ch0 8 := by
  have hrc : hasRcBuiltin { main0.2 with apFinal := main0.2.apFinal + 1 } = false := by decide +kernel
  obtain ⟨boundary, hb⟩ := boundary_exists { main0.2 with apFinal := main0.2.apFinal + 1 } (n := 2 ^ 3)
    (by decide +kernel) (by decide +kernel) (by decide +kernel) (by norm_num) ch0 (by
      have h : main0.2.publicMemory.all
          (fun e => decide (ch0.zMemory ≠ e.1 + ch0.alphaMemory * e.2)) = true := by decide +kernel
      exact fun e he => of_decide_eq_true (List.all_eq_true.1 h e he))
  have := C79_cairo_unsatisfying (pi := { main0.2 with apFinal := main0.2.apFinal + 1 })
    (options := ProofOptions.defaultTestOptions) (a := 3) (b := 2) (main := main0.1) (ch := ch0) (aux := aux0)
    (by norm_num) (by norm_num) (by norm_num) rfl three_nonsquare main0_length (by rw [hrc]; exact main0_width)
    (by decide +kernel) ((aux_apFinal _ _ _ _).trans aux0_eq) hb fun h => absurd (C32_boundary_partial h).2.2.2.2 (by decide +kernel)
  rw [hrc] at this
  exact this

/-- The hypotheses are met: two rows of zeros except for the value of the range check in the first one. -/
example : let row : FE → List FE := fun v => List.replicate 42 0 ++ [v]
    let pi : PublicInputs := ⟨1, 8, 8, 1, 8, some 0, some 0, [(.rangeCheck, (20, 21))], [(1, 5)], 1⟩
    MostlyRejected starkRoots CairoAir.new pi ProofOptions.defaultTestOptions (air (2 ^ 1) pi
      ProofOptions.defaultTestOptions) 1 2 ⟨[row 7, row 0].flatten, 43⟩ Examples.ch0 8 := by
  intro row pi
  have haux := Outcome.eq_ok_getD (x := ExecTrace.buildAuxiliaryTrace pi [row 7, row 0] Examples.ch0) [] (by decide +kernel)
  obtain ⟨boundary, hb⟩ := boundary_exists pi (n := 2 ^ 1) (by decide) (by decide) (by decide) (by norm_num) Examples.ch0
    (by
      intro e he
      have h : (300 : FE) ≠ 1 + 2 * 5 := by decide +kernel
      obtain rfl : e = (1, 5) := by simpa [pi] using he
      exact h)
  exact C79_cairo_changed_value (by norm_num) (by norm_num) (by norm_num) rfl three_nonsquare rfl rfl (by decide)
    (by decide) haux hb (i := 0) (by decide) (by decide +kernel)

end Verif.Props
