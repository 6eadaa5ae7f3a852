import Verif.Lemmas.ProveTalk
import Verif.Spec.Inputs

/-!
# The verdict on a proof, from the challenges
-/

namespace Verif.Rep
open Verif.Spec
variable {F T Ch : Type} [Field F] [DecidableEq F] (env : Env F T)

/-- The first step for an AIR with other boundary constraints. -/
theorem step1_other {e : Env F T} {air air' : Air F Ch} (B : SameButBoundary air air') {proof : StarkProof F}
    {d : Domain F} {t t' : T} {c : Challenges F Ch} (h : step1 e air proof d t = .ok (c, t')) :
    step1 e air' proof d t = air'.boundaryConstraints c.rapChallenges >>= fun _ => .ok (c, t') := by
  have hbuild : ∀ t, buildRapChallenges e air' t = buildRapChallenges e air t := by
    intro t
    unfold buildRapChallenges
    rw [B.numRapChallenges, B.rapChallenges]
  unfold step1 at h ⊢
  simp only [Outcome.bind_eq_ok, Outcome.pure_eq] at h
  obtain ⟨root0, h0, bcs, h1, z, h2, t7, h3, io, h4, h5⟩ := h
  simp only [Outcome.ok.injEq, Prod.mk.injEq] at h5
  obtain ⟨rfl, rfl⟩ := h5
  rw [h0, bind_ok']
  simp only [hbuild, B.context]
  cases h1' : air'.boundaryConstraints (buildRapChallenges e air (e.tr.append t root0.val)).1 with
  | err x => exact x.elim
  | panic => rfl
  | ok bcs' =>
    rw [bind_ok', bind_ok', B.number _ _ _ h1 h1', h2, bind_ok', h3, bind_ok', h4, bind_ok']
    rfl

/-- What the verifier answers, from the challenges. -/
noncomputable def verdict (e : Env F T) (air : Air F Ch) (d : Domain F) (proof : StarkProof F) (queries : Nat)
    (c : Challenges F Ch) : Outcome Empty Bool := do
  if proof.queryList.length < queries then return false
  else
    let _ ← air.boundaryConstraints c.rapChallenges
    if c.leadingZerosCount < air.context.proofOptions.grindingFactor.toNat then return false
    else
      let ok2 ← step2 air proof d c
      if !ok2 then return false
      else
        let ok3 ← step3 e proof d c
        if !ok3 then return false
        else
          let ok4 ← step4 e air proof d c
          if !ok4 then return false
          else return true

theorem verify_eq_verdict {e : Env F T} {PI : Type} {new : AirNew F Ch PI} {pi : PI} {options : ProofOptions}
    {air air' : Air F Ch} (B : SameButBoundary air air') {proof : StarkProof F} {d : Domain F} {t' : T}
    {c : Challenges F Ch} (hnew : new proof.traceLength pi options = .ok air') (hd : Domain.new e.ta air = .ok d)
    (h : step1 e air proof d e.tr.init = .ok (c, t')) :
    verify e new proof pi options = verdict e air' d proof options.friNumberOfQueries c := by
  have hd' : Domain.new e.ta air' = .ok d := by
    rw [← hd]
    unfold Domain.new
    rw [B.context, B.traceLength]
  unfold verify verdict
  split
  · rfl
  · rw [hnew, bind_ok', hd', bind_ok', step1_other B h, bind_assoc]
    rfl

theorem verdict_over {S : Type} (tr : Transcript S) (K : Bytes → Commitment) (air : Air F Ch) (d : Domain F)
    (proof : StarkProof F) (queries : Nat) (c : Challenges F Ch) :
    verdict (env.over tr K) air d proof queries c = verdict env air d proof queries c := rfl

end Verif.Rep
