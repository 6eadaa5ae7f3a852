import Verif.Lemmas.Parallel
import Verif.Lemmas.Readable
import Verif.Props.Verifier
import Verif.Props.NoPanic

/-!
# C55: exactly when the verifier panics
-/

namespace Verif.Props
open Polynomial Verif.Spec
variable {F T Ch : Type} [Field F] [DecidableEq F] {env : Env F T}

/-- The challenges can be recovered: there is a commitment to the trace, the out-of-domain frame has columns, the
boundary constraints can be computed for the challenges drawn after the first commitment, and the sampling of the
out-of-domain point ends. -/
def Starts (env : Env F T) (air : Air F Ch) (d : Domain F) (proof : StarkProof F) : Prop :=
  proof.traceOodFrameEvaluations.rowWidth ≠ 0 ∧
    ∃ root ∈ proof.ldeTraceMerkleRoots.head?, ∃ boundary,
      air.boundaryConstraints (challengesAfter env air root) = .ok boundary ∧
      env.tr.sampleZOod env.ofDigest d.ldeRootsOfUnityCoset d.traceRootsOfUnity
        (beforePoint env air proof.ldeTraceMerkleRoots boundary.length proof.compositionPolyRoot) ≠ none

theorem step1_answers {air : Air F Ch} {d : Domain F} {proof : StarkProof F} (hsmall : d.ldeRootOrder < 64) :
    (∃ r, step1 env air proof d env.tr.init = .ok r) ↔ Starts env air d proof := by
  constructor
  · rintro ⟨r, hr⟩
    unfold step1 at hr
    simp only [Outcome.bind_eq_ok, Outcome.pure_eq, Outcome.ok.injEq] at hr
    obtain ⟨root0, h0, boundary, hb, z, hz, t7, h7, -⟩ := hr
    refine ⟨(appendFrame_answers _ _).1 ⟨t7, h7⟩, root0, ?_, boundary, hb, ?_⟩
    · rw [index_eq_ok] at h0
      rw [List.head?_eq_getElem?]
      exact h0
    · intro hn
      have h2 := ofOptionUnwrap_ok.mp hz
      obtain ⟨rest, hroots⟩ : ∃ rest, proof.ldeTraceMerkleRoots = root0 :: rest := by
        rw [index_eq_ok] at h0
        cases h : proof.ldeTraceMerkleRoots with
        | nil => rw [h] at h0; cases h0
        | cons r rest => rw [h] at h0; cases h0; exact ⟨rest, rfl⟩
      unfold beforePoint transcriptRound1 at hn
      rw [hroots] at h2 hn
      cases rest with
      | nil => exact absurd (h2.symm.trans hn) (by simp)
      | cons root1 tail => exact absurd (h2.symm.trans hn) (by simp)
  · rintro ⟨hw, root, hroot, boundary, hb, hz⟩
    obtain ⟨rest, hroots⟩ : ∃ rest, proof.ldeTraceMerkleRoots = root :: rest := by
      cases h : proof.ldeTraceMerkleRoots with
      | nil => rw [h] at hroot; cases hroot
      | cons r rest => rw [h] at hroot; cases hroot; exact ⟨rest, rfl⟩
    obtain ⟨c, t, h1, -⟩ := step1_exists_at (env := env) (d := d) hroots hsmall hb (by rw [← hroots]; exact hz)
      fun t => (appendFrame_answers _ t).2 hw
    exact ⟨_, h1⟩

/-- **C55**, exactly: for an AIR whose declarations fit together and a domain that can be built, the verifier panics
exactly on the proofs with enough queries such that
* the challenges cannot be recovered (`Starts`), or
* the proof of work is right and the out-of-domain frame cannot be read (`FrameReadable`), or
* the out-of-domain check also accepts, and an answer to a query cannot be read (`QueriesReadable`), or
* the FRI check also accepts, and the square of the out-of-domain point is queried, or an opening cannot be read
  (`OpeningsReadable`).
On all other proofs it returns true or false. -/
theorem C55_panics_exactly {PI : Type} {new : AirNew F Ch PI} {pi : PI} {options : ProofOptions}
    {proof : StarkProof F} {air : Air F Ch} (hair : new proof.traceLength pi options = .ok air)
    (hopt : air.context.proofOptions = options) {a b : Nat} (S : Setting air a b) {d : Domain F}
    (hd : Domain.new env.ta air = .ok d) :
    verify env new proof pi options = .panic ↔
      options.friNumberOfQueries ≤ proof.queryList.length ∧
      (¬ Starts env air d proof ∨
        ∃ c t boundary, step1 env air proof d env.tr.init = .ok (c, t) ∧
          air.boundaryConstraints c.rapChallenges = .ok boundary ∧
          options.grindingFactor.toNat ≤ c.leadingZerosCount ∧
          (¬ FrameReadable air boundary proof.traceOodFrameEvaluations c.rapChallenges ∨
            step2 air proof d c = .ok true ∧
            (¬ QueriesReadable proof options.friNumberOfQueries (a + b) ∨
              step3 env proof d c = .ok true ∧
              ((∃ i ∈ c.iotas, d.ldeRootsOfUnityCoset[i]? = some (c.z ^ 2)) ∨
                ¬ OpeningsReadable air proof options.friNumberOfQueries)))) := by
  obtain ⟨g, w, D⟩ := domain_new S.rows S.length S.blowup hd
  have hsmall : d.ldeRootOrder < 64 := by rw [D.ldeRootOrder]; exact D.small
  unfold verify
  by_cases hq : proof.queryList.length < options.friNumberOfQueries
  · rw [if_pos hq]
    constructor
    · intro h
      cases h
    · intro h
      omega
  rw [if_neg hq]
  have hq' : options.friNumberOfQueries ≤ proof.queryList.length := by omega
  simp only [hair, hd, Outcome.bind_ok, hq', true_and]
  by_cases hs : Starts env air d proof
  swap
  · simp only [hs, not_false_iff, true_or, iff_true]
    rcases (step1 env air proof d env.tr.init).ok_or_panic with ⟨r, hr⟩ | hp
    · exact absurd ((step1_answers hsmall).1 ⟨r, hr⟩) hs
    · rw [hp]
      rfl
  obtain ⟨⟨c, t⟩, h1⟩ := (step1_answers hsmall).2 hs
  obtain ⟨hi1, hi2, hi3, hi4, hi5, hi6⟩ := step1_inv h1
  rw [hopt] at hi5
  obtain ⟨boundary, hb⟩ : ∃ boundary, air.boundaryConstraints c.rapChallenges = .ok boundary := by
    have h := h1
    unfold step1 at h
    simp only [Outcome.bind_eq_ok, Outcome.pure_eq, Outcome.ok.injEq, Prod.mk.injEq] at h
    obtain ⟨root0, -, boundary, hb, z, -, t7, -, io, -, rfl, -⟩ := h
    exact ⟨boundary, hb⟩
  have hexists : ∀ P : Challenges F Ch → List (BoundaryConstraint F) → Prop,
      (∃ c' t' boundary', step1 env air proof d env.tr.init = .ok (c', t') ∧
        air.boundaryConstraints c'.rapChallenges = .ok boundary' ∧ P c' boundary') ↔ P c boundary := by
    intro P
    constructor
    · rintro ⟨c', t', boundary', h1', hb', hP⟩
      cases h1.symm.trans h1'
      cases hb.symm.trans hb'
      exact hP
    · intro hP
      exact ⟨c, t, boundary, h1, hb, hP⟩
  rw [hexists fun c boundary => options.grindingFactor.toNat ≤ c.leadingZerosCount ∧
    (¬ FrameReadable air boundary proof.traceOodFrameEvaluations c.rapChallenges ∨
      step2 air proof d c = .ok true ∧
      (¬ QueriesReadable proof options.friNumberOfQueries (a + b) ∨
        step3 env proof d c = .ok true ∧
        ((∃ i ∈ c.iotas, d.ldeRootsOfUnityCoset[i]? = some (c.z ^ 2)) ∨
          ¬ OpeningsReadable air proof options.friNumberOfQueries)))]
  simp only [h1, Outcome.bind_ok, hs, not_true_eq_false, false_or, hopt]
  by_cases hg : c.leadingZerosCount < options.grindingFactor.toNat
  · rw [if_pos hg]
    constructor
    · intro h
      cases h
    · rintro ⟨h, -⟩
      omega
  rw [if_neg hg]
  have hg' : options.grindingFactor.toNat ≤ c.leadingZerosCount := by omega
  simp only [hg', true_and]
  have h2 := step2_answers D S.fits S.length (proof := proof) ((D.notMem_trace_iff _).mp hi2) hb
  by_cases hf : FrameReadable air boundary proof.traceOodFrameEvaluations c.rapChallenges
  swap
  · simp only [hf, not_false_iff, true_or, iff_true]
    rcases (step2 air proof d c).ok_or_panic with ⟨r, hr⟩ | hp
    · exact absurd (h2.1 ⟨r, hr⟩) hf
    · rw [hp]
      rfl
  obtain ⟨r2, hr2⟩ := h2.2 hf
  simp only [hr2, hf, not_true_eq_false, false_or, Outcome.bind_ok, Outcome.ok.injEq]
  cases r2
  · simp
  simp only [Bool.not_true, true_and]
  have h3 := step3_answers (proof := proof) D S.offset hi6 (by rw [hi5]; exact hq') (step1_zetas h1)
  rw [hi5] at h3
  by_cases hqr : QueriesReadable proof options.friNumberOfQueries (a + b)
  swap
  · simp only [hqr, not_false_iff, true_or, iff_true]
    rcases (step3 env proof d c).ok_or_panic with ⟨r, hr⟩ | hp
    · exact absurd (h3.1 ⟨r, hr⟩) hqr
    · rw [hp]
      rfl
  obtain ⟨r3, hr3⟩ := h3.2 hqr
  simp only [hr3, hqr, not_true_eq_false, false_or, Outcome.bind_ok, Outcome.ok.injEq]
  cases r3
  · simp
  simp only [Bool.not_true, true_and]
  have h4 := step4_answers (proof := proof) D S.fits hi6 hi1 hs.1 hi3 hi4 (by rw [hi5]; exact hq')
    (fun q hq2 => (hqr q (by rwa [hi5] at hq2)).1)
  rw [hi5] at h4
  rcases (step4 env air proof d c).ok_or_panic with ⟨r4, hr4⟩ | hp
  · have h5 := h4.1 ⟨r4, hr4⟩
    rw [hr4]
    constructor
    · intro h
      cases r4 <;> cases h
    · rintro (⟨i, hi, he⟩ | h)
      · exact absurd he (h5.1 i hi)
      · exact absurd h5.2 h
  · rw [hp]
    refine ⟨fun _ => ?_, fun _ => rfl⟩
    by_contra hc
    push Not at hc
    obtain ⟨r, hr⟩ := h4.2 hc
    rw [hp] at hr
    cases hr

/-- The steps of an accepting run. -/
theorem accepted_steps {PI : Type} {new : AirNew F Ch PI} {pi : PI} {options : ProofOptions}
    {proof : StarkProof F} {air : Air F Ch} (hair : new proof.traceLength pi options = .ok air)
    (hopt : air.context.proofOptions = options) (h : verify env new proof pi options = .ok true) :
    options.friNumberOfQueries ≤ proof.queryList.length ∧ ∃ d, Domain.new env.ta air = .ok d ∧
      ∃ c t, step1 env air proof d env.tr.init = .ok (c, t) ∧ options.grindingFactor.toNat ≤ c.leadingZerosCount ∧
        step2 air proof d c = .ok true ∧ step3 env proof d c = .ok true ∧ step4 env air proof d c = .ok true := by
  unfold verify at h
  split at h
  · cases h
  next hq =>
  simp only [hair, Outcome.bind_ok, Outcome.bind_eq_ok] at h
  obtain ⟨d, hd, ⟨c, t⟩, h1, h⟩ := h
  split at h
  · cases h
  next hg =>
  rw [Outcome.bind_eq_ok] at h
  obtain ⟨r2, h2, h⟩ := h
  cases r2
  · cases h
  simp only [Bool.not_true, Bool.false_eq_true, if_false] at h
  rw [Outcome.bind_eq_ok] at h
  obtain ⟨r3, h3, h⟩ := h
  cases r3
  · cases h
  simp only [Bool.not_true, Bool.false_eq_true, if_false] at h
  rw [Outcome.bind_eq_ok] at h
  obtain ⟨r4, h4, h⟩ := h
  cases r4
  · cases h
  rw [hopt] at hg
  exact ⟨by omega, d, hd, c, t, h1, by simpa using hg, h2, h3, h4⟩

theorem step2_boundary {air : Air F Ch} {proof : StarkProof F} {d : Domain F} {c : Challenges F Ch} {r : Bool}
    (h : step2 air proof d c = .ok r) : ∃ boundary, air.boundaryConstraints c.rapChallenges = .ok boundary := by
  unfold step2 at h
  rw [Outcome.bind_eq_ok] at h
  obtain ⟨boundary, hb, -⟩ := h
  exact ⟨boundary, hb⟩

/-- **C55** refuted: take any accepted proof and any openings, one of which, among those that are read, has fewer trace
values than the AIR has main columns. With these openings the verifier panics. -/
theorem C55_short_opening_panics {PI : Type} {new : AirNew F Ch PI} {pi : PI} {options : ProofOptions}
    {proof : StarkProof F} {air : Air F Ch} (hair : new proof.traceLength pi options = .ok air)
    (hopt : air.context.proofOptions = options) {a b : Nat} (S : Setting air a b)
    (h : verify env new proof pi options = .ok true) (openings : List (DeepPolynomialOpenings F))
    (hshort : ∃ o ∈ openings.take options.friNumberOfQueries,
      o.ldeTraceEvaluations.length < air.context.traceColumns - air.numberAuxiliaryRapColumns) :
    verify env new { proof with deepPolyOpenings := openings } pi options = .panic := by
  obtain ⟨hq, d, hd, c, t, h1, hg, h2, h3, -⟩ := accepted_steps hair hopt h
  refine (C55_panics_exactly (proof := { proof with deepPolyOpenings := openings }) hair hopt S hd).2
    ⟨hq, .inr ?_⟩
  obtain ⟨boundary, hb⟩ := step2_boundary h2
  refine ⟨c, t, boundary, h1, hb, hg, .inr ⟨h2, .inr ⟨h3, .inr fun hr => ?_⟩⟩⟩
  obtain ⟨o, ho, hlt⟩ := hshort
  have := (hr o ho).1
  omega

/-- **C55** refuted: take any accepted proof and any answers to the queries, at least as many as are configured, one of
which, among those that are read, has no value. With these answers the verifier panics. -/
theorem C55_empty_answer_panics {PI : Type} {new : AirNew F Ch PI} {pi : PI} {options : ProofOptions}
    {proof : StarkProof F} {air : Air F Ch} (hair : new proof.traceLength pi options = .ok air)
    (hopt : air.context.proofOptions = options) {a b : Nat} (S : Setting air a b)
    (h : verify env new proof pi options = .ok true) (queries : List (FriDecommitment F))
    (hlen : options.friNumberOfQueries ≤ queries.length)
    (hempty : ∃ q ∈ queries.take options.friNumberOfQueries, q.layersEvaluations = []) :
    verify env new { proof with queryList := queries } pi options = .panic := by
  obtain ⟨hq, d, hd, c, t, h1, hg, h2, -⟩ := accepted_steps hair hopt h
  refine (C55_panics_exactly (proof := { proof with queryList := queries }) hair hopt S hd).2
    ⟨hlen, .inr ?_⟩
  obtain ⟨boundary, hb⟩ := step2_boundary h2
  refine ⟨c, t, boundary, h1, hb, hg, .inr ⟨h2, .inl fun hr => ?_⟩⟩
  obtain ⟨q, hq1, hq2⟩ := hempty
  exact (hr q hq1).1 hq2

open Examples ExampleAirs in
theorem accepted17 : ∃ proof, fibonacci2 proof.traceLength ⟨1, 1⟩ (options17 3) = .ok air17 ∧
    verify env17 fibonacci2 proof ⟨1, 1⟩ (options17 3) = .ok true ∧ proof.deepPolyOpenings.length = 2 := by
  obtain ⟨proof, hp, hv⟩ := honest17
  obtain ⟨d', c', t', r1, r2, deep, layers, ps, hd', hs', U⟩ :=
    C49_same_challenges (env := env17) (trace := TraceTable.ofRows rows17 2) (a := 2) (b := 1)
      (air := air17) rfl (by norm_num) rfl rfl hp
  obtain ⟨-, -, -, -, hi, -⟩ := step1_inv hs'
  have hlen : proof.deepPolyOpenings.length = c'.iotas.length := ExecTrace.mapOutcome_length U.openings
  exact ⟨proof, by rw [U.traceLength]; exact air17_eq, hv, by rw [hlen, hi]; rfl⟩

open Examples ExampleAirs in
/-- Such a proof: an honest one of the Fibonacci sequence. With openings without values, or with answers without
values, the verifier panics. -/
example : ∃ proof : StarkProof (ZMod 17), verify env17 fibonacci2 proof ⟨1, 1⟩ (options17 3) = .ok true ∧
    verify env17 fibonacci2 { proof with deepPolyOpenings := (proof.deepPolyOpenings.map
      fun o => { o with ldeTraceEvaluations := [] }) } ⟨1, 1⟩ (options17 3) = .panic ∧
    verify env17 fibonacci2 { proof with queryList := List.replicate 2 ⟨[], [], [], []⟩ } ⟨1, 1⟩ (options17 3)
      = .panic := by
  obtain ⟨proof, hair, hv, hl⟩ := accepted17
  refine ⟨proof, hv, C55_short_opening_panics hair rfl setting17 hv _ ?_,
    C55_empty_answer_panics hair rfl setting17 hv _ (by decide) ⟨⟨[], [], [], []⟩, by decide, rfl⟩⟩
  refine ⟨_, List.getElem_mem (n := 0) (by simp [hl, options17]), ?_⟩
  simp only [List.getElem_take, List.getElem_map, List.length_nil]
  decide

end Verif.Props
