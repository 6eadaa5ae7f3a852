import Verif.Lemmas.VerifyTalk
import Verif.Lemmas.ShapedForgery

/-!
# The transcript of a proof up to the first coefficients of the trace, as a program that talks to it
-/

namespace Verif.Rep
open Spec Random Proximity Polynomial
variable {F T T₀ Ch X Y : Type} [Field F] [DecidableEq F] (env : Env F T₀)

/-- The transcript of a proof with two trace roots, up to the coefficients of the first column: the point and these
coefficients. The claimed value of the even part may depend on the challenges before it. -/
noncomputable def toWeights (e : Env F T) (air : Air F Ch) (domain : Domain F) (root0 root1 compositionRoot : Commitment)
    (even : Ch → List (BoundaryConstraint F) → List (F × F) × List (F × F) → F → F) (odd : F) (frame : Frame F) (t : T) :
    Outcome Empty ((F × List F) × T) := do
  let u ← Outcome.ok ((), e.tr.append t root0.val)
  let raw ← Outcome.ok (e.samples air.numRapChallenges u.2)
  let u ← Outcome.ok ((), e.tr.append raw.2 root1.val)
  let boundary ← air.boundaryConstraints (air.rapChallenges raw.1)
  let alphasB ← Outcome.ok (e.samples boundary.length u.2)
  let betasB ← Outcome.ok (e.samples boundary.length alphasB.2)
  let alphasT ← Outcome.ok (e.samples air.context.numTransitionConstraints betasB.2)
  let betasT ← Outcome.ok (e.samples air.context.numTransitionConstraints alphasT.2)
  let u ← Outcome.ok ((), e.tr.append betasT.2 compositionRoot.val)
  let z ← Outcome.ofOptionUnwrap (e.tr.sampleZOod e.ofDigest domain.ldeRootsOfUnityCoset domain.traceRootsOfUnity u.2)
  let u ← Outcome.ok ((), e.appendField z.2 (even (air.rapChallenges raw.1) boundary
    (alphasB.1.zip betasB.1, alphasT.1.zip betasT.1) z.1))
  let u ← Outcome.ok ((), e.appendField u.2 odd)
  let u ← (Verif.appendFrame e frame u.2 >>= fun t => .ok ((), t))
  let gammaEven ← Outcome.ok (e.sample u.2)
  let gammaOdd ← Outcome.ok (e.sample gammaEven.2)
  let row ← Outcome.ok (e.samples air.context.transitionOffsets.length gammaOdd.2)
  .ok ((z.1, row.1), row.2)

theorem toWeights_rep (air : Air F Ch) (domain : Domain F) (root0 root1 compositionRoot : Commitment)
    (even : Ch → List (BoundaryConstraint F) → List (F × F) × List (F × F) → F → F) (odd : F) (frame : Frame F) {nb : Nat}
    (hb : ∀ ch cs, air.boundaryConstraints ch = .ok cs → cs.length = nb) (r : Nat) :
    Rep 0 (air.numRapChallenges + 2 * nb + 2 * air.context.numTransitionConstraints + r + 2
        + air.context.transitionOffsets.length)
      (probability Commitment (fun d => env.ofDigest d
        ∈ domain.ldeRootsOfUnityCoset ++ domain.traceRootsOfUnity) ^ r)
      fun T tr K t => toWeights (env.over tr K : Env F T) air domain root0 root1 compositionRoot even odd frame t := by
  have hz := point env domain.ldeRootsOfUnityCoset domain.traceRootsOfUnity r
  have hq : (0 : ℚ) ≤ probability Commitment (fun d => env.ofDigest d
    ∈ domain.ldeRootsOfUnityCoset ++ domain.traceRootsOfUnity) ^ r := pow_nonneg (probability_nonneg _) _
  generalize probability Commitment (fun d => env.ofDigest d
    ∈ domain.ldeRootsOfUnityCoset ++ domain.traceRootsOfUnity) ^ r = ζ at hq hz ⊢
  refine Rep.mono (n := 0 + (air.numRapChallenges + (0 + (nb + (nb + (air.context.numTransitionConstraints
    + (air.context.numTransitionConstraints + (0 + (r + (0 + (0 + (0 + (1 + (1
    + (air.context.transitionOffsets.length + 0))))))))))))))) (ε := ζ) ?_ (by omega) le_rfl
  refine (send () _).bind_zero hq fun _ => ?_
  dsimp only
  refine (samples env _).bind_zero hq fun raw => ?_
  dsimp only
  refine (send () _).bind_zero hq fun _ => ?_
  dsimp only
  refine pre hq fun cs hcs => ?_
  rw [hb _ cs hcs]
  refine (samples env _).bind_zero hq fun aB => ?_
  dsimp only
  refine (samples env _).bind_zero hq fun bB => ?_
  dsimp only
  refine (samples env _).bind_zero hq fun aT => ?_
  dsimp only
  refine (samples env _).bind_zero hq fun bT => ?_
  dsimp only
  refine (send () _).bind_zero hq fun _ => ?_
  dsimp only
  refine Rep.mono (ε := ζ + 0) (hz.bind le_rfl fun z => ?_) le_rfl (add_zero _).le
  dsimp only
  refine (appendField env () _).bind_zero le_rfl fun _ => ?_
  dsimp only
  refine (appendField env () _).bind_zero le_rfl fun _ => ?_
  dsimp only
  refine (appendFrame env _).bind_zero le_rfl fun _ => ?_
  dsimp only
  refine (sample env).bind_zero le_rfl fun _ => ?_
  dsimp only
  refine (sample env).bind_zero le_rfl fun _ => ?_
  dsimp only
  refine (samples env _).bind_zero le_rfl fun _ => ?_
  dsimp only
  exact ret _

theorem toWeights_ok {e : Env F T} {air : Air F Ch} {d : Domain F} {root0 root1 compositionRoot : Commitment}
    {even : Ch → List (BoundaryConstraint F) → List (F × F) × List (F × F) → F → F} {odd : F} {frame : Frame F}
    {z : F} {row : List F} {t : T} :
    toWeights e air d root0 root1 compositionRoot even odd frame e.tr.init = .ok ((z, row), t) ↔
    ∃ bcs t6 t7, air.boundaryConstraints (challengesAfter e air root0) = .ok bcs ∧
      e.tr.sampleZOod e.ofDigest d.ldeRootsOfUnityCoset d.traceRootsOfUnity
        (beforePoint e air [root0, root1] bcs.length compositionRoot) = some (z, t6) ∧
      Verif.appendFrame e frame (e.appendField (e.appendField t6 (even (challengesAfter e air root0) bcs
        (coefficientsAfter e bcs.length air.context.numTransitionConstraints
          (transcriptRound1 e air [root0, root1] e.tr.init)) z)) odd) = .ok t7 ∧
      e.samples air.context.transitionOffsets.length (e.sample (e.sample t7).2).2 = (row, t) := by
  unfold toWeights
  simp only [bind_ok', Outcome.bind_eq_ok, Outcome.ok.injEq, Prod.exists, Prod.mk.injEq]
  constructor
  · rintro ⟨bcs, h1, z', t6, h2, -, u, ⟨t7, h3, -, rfl⟩, ⟨rfl, h4⟩, h5⟩
    refine ⟨bcs, t6, t7, h1, ?_, h3, Prod.ext h4 h5⟩
    change Outcome.ofOptionUnwrap (e.tr.sampleZOod _ _ _ (beforePoint e air [root0, root1] bcs.length compositionRoot)) = _
      at h2
    cases hz : e.tr.sampleZOod e.ofDigest d.ldeRootsOfUnityCoset d.traceRootsOfUnity
      (beforePoint e air [root0, root1] bcs.length compositionRoot) with
    | none => rw [hz] at h2; cases h2
    | some x => rw [hz] at h2; rw [Outcome.ok.inj h2]
  · rintro ⟨bcs, t6, t7, h1, h2, h3, h4⟩
    refine ⟨bcs, h1, z, t6, ?_, (), t7, ⟨t7, h3, trivial, rfl⟩, ⟨rfl, congrArg Prod.fst h4⟩, congrArg Prod.snd h4⟩
    exact congrArg Outcome.ofOptionUnwrap h2

end Verif.Rep
