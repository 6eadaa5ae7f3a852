import Verif.Props.Release
import Verif.Props.Inputs
import Verif.Props.CairoHonest

/-!
# C77: the claimed number of steps
-/

namespace Verif.Props
open CairoAir
variable {T : Type}

theorem verify_steps {env : Env FE T} {new new' : AirNew FE (RAPChallenges FE) PublicInputs}
    {proof : StarkProof FE} {pi pi' : PublicInputs} {options : ProofOptions} {A : Air FE (RAPChallenges FE)}
    {f f' : RAPChallenges FE → Outcome Empty (List (BoundaryConstraint FE))}
    (h : new proof.traceLength pi options = .ok { A with boundaryConstraints := f })
    (h' : new' proof.traceLength pi' options = .ok { A with boundaryConstraints := f' })
    (hs : ∀ d, Domain.new env.ta A = .ok d → ∀ ch, SameSteps d.tracePrimitiveRoot (f ch) (f' ch)) :
    verify env new proof pi options = verify env new' proof pi' options := by
  unfold verify
  split
  · rfl
  rw [h, h', Outcome.bind_ok, Outcome.bind_ok]
  change (Domain.new env.ta A >>= _) = (Domain.new env.ta A >>= _)
  cases hd : Domain.new env.ta A with
  | panic => rfl
  | err e => exact e.elim
  | ok d =>
    have hs := hs d hd
    have h1 : step1 env { A with boundaryConstraints := f } proof d env.tr.init
        = step1 env { A with boundaryConstraints := f' } proof d env.tr.init := by
      unfold step1
      congr 1
      funext root
      dsimp only
      have := hs (buildRapChallenges env A (env.tr.append env.tr.init root.val)).1
      change (f (buildRapChallenges env A (env.tr.append env.tr.init root.val)).1 >>= _)
        = (f' (buildRapChallenges env A (env.tr.append env.tr.init root.val)).1 >>= _)
      rcases this with ⟨h1, h2⟩ | ⟨bs, bs', h1, h2, h3⟩
      · rw [h1, h2]; rfl
      · rw [h1, h2, Outcome.bind_ok, Outcome.bind_ok, h3.length_eq]
        rfl
    have h2 : ∀ c, step2 { A with boundaryConstraints := f } proof d c
        = step2 { A with boundaryConstraints := f' } proof d c := by
      intro c
      unfold step2
      dsimp only
      rcases hs c.rapChallenges with ⟨h1, h2⟩ | ⟨bs, bs', h1, h2, h3⟩
      · rw [h1, h2]; rfl
      · simp only [h1, h2, Outcome.bind_ok, oodBoundary_steps h3]
        rfl
    rw [Outcome.bind_ok, Outcome.bind_ok, h1]
    congr 1
    funext c
    rw [h2]
    rfl

/-- **C77**, what is not bound: the number of steps is bound only modulo the length of the trace. Two positive numbers
of steps with the same remainder get the same verdict on every proof, even when they exceed the length of the trace. -/
theorem C77_steps_modulo (env : Env FE T) (proof : StarkProof FE) (pi : PublicInputs) (options : ProofOptions)
    {a s s' : Nat} (ha : 1 ≤ a) (ha' : a < 64) (hn : proof.traceLength = 2 ^ a) (hs : 1 ≤ s) (hs' : 1 ≤ s')
    (hmod : s % 2 ^ a = s' % 2 ^ a) :
    verifyCairoProof env proof { pi with numSteps := s } options =
      verifyCairoProof env proof { pi with numSteps := s' } options := by
  refine verify_steps (A := air proof.traceLength pi options) rfl rfl fun d hd ch => ?_
  have hg : d.tracePrimitiveRoot ^ (2 ^ a) = 1 := by
    unfold Domain.new at hd
    simp only [Outcome.bind_eq_ok] at hd
    obtain ⟨g, hroot, roots, -, hd⟩ := hd
    split at hd
    · cases hd
    simp only [Outcome.bind_eq_ok, Outcome.pure_eq, Outcome.ok.injEq] at hd
    obtain ⟨lde, -, rfl⟩ := hd
    rw [show (air proof.traceLength pi options).traceLength = 2 ^ a from hn, trailingZeros_pow ha', getRoot_ok] at hroot
    exact (env.ta.primitive a _ ha hroot).pow_eq_one
  have hg0 : d.tracePrimitiveRoot ≠ 0 := fun h => by
    rw [h, zero_pow (by positivity)] at hg
    exact zero_ne_one hg
  have hp : d.tracePrimitiveRoot ^ s = d.tracePrimitiveRoot ^ s' := by
    rw [pow_eq_pow_mod s hg, pow_eq_pow_mod s' hg, hmod]
  have hw : d.tracePrimitiveRoot ^ (s - 1) = d.tracePrimitiveRoot ^ (s' - 1) := by
    refine mul_right_cancel₀ hg0 ?_
    rw [← pow_succ, ← pow_succ, Nat.sub_add_cancel hs, Nat.sub_add_cancel hs', hp]
  show SameSteps _ (boundaryConstraints { pi with numSteps := s } _ ch)
    (boundaryConstraints { pi with numSteps := s' } _ ch)
  unfold boundaryConstraints
  dsimp only
  have hn0 : proof.traceLength ≠ 0 := by rw [hn]; positivity
  rw [if_neg (by omega), if_neg (by omega)]
  cases inv (pi.publicMemory.foldl (fun product e => product * (ch.zMemory - (e.1 + ch.alphaMemory * e.2))) 1) with
  | panic => exact .inl ⟨rfl, rfl⟩
  | err e => exact e.elim
  | ok x =>
    cases pi.rangeCheckMin with
    | none => exact .inl ⟨rfl, rfl⟩
    | some lo =>
      cases pi.rangeCheckMax with
      | none => exact .inl ⟨rfl, rfl⟩
      | some hi =>
        refine .inr ⟨_, _, rfl, rfl, ?_⟩
        exact .cons ⟨rfl, rfl, rfl⟩ (.cons ⟨rfl, rfl, rfl⟩ (.cons ⟨rfl, rfl, hw⟩ (.cons ⟨rfl, rfl, hw⟩
          (.cons ⟨rfl, rfl, rfl⟩ (.cons ⟨rfl, rfl, rfl⟩ (.cons ⟨rfl, rfl, rfl⟩ (.cons ⟨rfl, rfl, rfl⟩ .nil)))))))

/-- The proof of the run of `simple_program`, on a trace of eight rows, is accepted for a claim of eight steps more
than it made. -/
example : ∃ proof, proof.traceLength = 2 ^ 3 ∧
    verifyCairoProof Examples.envFar proof { Examples.main0.2 with numSteps := Examples.main0.2.numSteps + 8 }
      ProofOptions.defaultTestOptions = .ok true := by
  obtain ⟨proof, hp, hv⟩ := example_cairo_proof
  have hl : proof.traceLength = 2 ^ 3 := by
    unfold generateCairoProof prove at hp
    simp only [Outcome.bind_eq_ok, Outcome.pure_eq, Outcome.ok.injEq] at hp
    obtain ⟨A, hA, _, -, _, -, _, -, _, -, _, -, _, -, rfl⟩ := hp
    obtain rfl := Outcome.ok.inj hA
    have h8 : TraceTable.nRows ⟨Examples.main0.1.flatten, (Examples.main0.1.headD []).length⟩ = 8 := by decide +kernel
    exact h8
  refine ⟨proof, hl, ?_⟩
  rw [← C77_steps_modulo Examples.envFar proof Examples.main0.2 ProofOptions.defaultTestOptions (a := 3)
    (s := Examples.main0.2.numSteps) (by norm_num) (by norm_num) hl (by decide +kernel) (by omega) (by omega)]
  exact hv

end Verif.Props
