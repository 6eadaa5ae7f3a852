import Verif.Lemmas.ShapedForgery
import Verif.Props.RandomForge

/-!
# C94: a complete accepted proof need not be evidence
-/

namespace Verif.Props
open Runner Cli Verif.Spec Random Proximity CairoAir ExecTrace Transcript TraceTable

/-- C94 is false of the code: for any commitments to the trace, any claimed values of the trace and any authentication
paths there is a proof with all the parts that a generated proof has, of the same numbers and lengths, for which the
verifier draws challenges `c`, and which it accepts unless the opened values of the trace have no influence on the DEEP
value at a queried point. Its composition polynomial and its FRI layers are commitments to zero. -/
theorem C94_complete_proof_forged {F T Ch : Type} [Field F] [DecidableEq F] {env : Env F T} {PI : Type}
    {new : AirNew F Ch PI} {pi : PI} {options : ProofOptions} {air : Air F Ch} {a b : Nat} (S : Setting air a b)
    (hab : a + b < 64) (had : a + b < env.ta.adicity)
    (hsq : ¬ IsSquare (air.context.proofOptions.cosetOffset : F))
    (hnew : new (2 ^ a) pi options = .ok air) (hopt : air.context.proofOptions = options)
    (hc : ∀ ch, ∃ cs, PolynomialConstraints air ch cs)
    (root0 : Commitment) (rest : List Commitment)
    (hb : ∃ bcs, air.boundaryConstraints (challengesAfter env air root0) = .ok bcs ∧
      ∀ c ∈ bcs, c.col < air.context.traceColumns)
    (hz : SamplingEnds env air)
    (hgrind : ∀ challenge, Grinding.generateNonce env.keccak challenge
      air.context.proofOptions.grindingFactor.toNat ≠ none)
    {rows : List (List F)}
    (hrows : rows.length = air.context.transitionOffsets.length)
    (hr : ∀ r ∈ rows, r.length = air.context.traceColumns) (odd : F)
    {paths : List MerkleProof} (hpaths : paths.length = (root0 :: rest).length)
    (hpath : ∀ p ∈ paths, p.merklePath.length = a + b) :
    ∃ proof d c t g, proof.ldeTraceMerkleRoots = root0 :: rest ∧
      proof.traceOodFrameEvaluations = ⟨rows.flatten, air.context.traceColumns⟩ ∧
      proof.compositionPolyOddOodEvaluation = odd ∧ proof.nonce < 2 ^ 64 ∧
      (∀ o ∈ proof.deepPolyOpenings, o.ldeTraceMerkleProofs = paths) ∧
      ProofShape proof a b air.context.traceColumns (root0 :: rest).length air.context.transitionOffsets.length
        options.friNumberOfQueries ∧
      Domain.new env.ta air = .ok d ∧ step1 env air proof d env.tr.init = .ok (c, t) ∧ env.ta.root a = some g ∧
      ((∀ iota ∈ c.iotas, ∀ x, d.ldeRootsOfUnityCoset[iota]? = some x →
        ∃ γs ∈ c.traceTermCoeffs, openedWeight g c.z x γs ≠ 0) →
        verify env new proof pi options = .ok true) :=
  shaped_forgery S hab had.le (fun _ z hw i => square_notMem' (by have := S.rows; omega) hw hsq had z i) hnew hopt hc
    root0 rest hb hz hgrind hrows hr odd hpaths hpath

open Verif.Examples ExampleAirs in
/-- The hypotheses are met: the Fibonacci AIR with two columns over the field with 17 elements. -/
example := C94_complete_proof_forged (env := env17) setting17 (by norm_num) (by decide)
  (by
    rw [show ((air17.context.proofOptions.cosetOffset : Nat) : ZMod 17) = 3 from rfl]
    decide +kernel) air17_eq rfl
  (fun ch => ⟨_, fibonacci2_polynomial _ _ _ air17_eq ch⟩)
  (digest 0) [] ⟨_, rfl, by decide +kernel⟩
  (samplingEnds_of setting17 fun lde trace t h1 h2 => sampleZOod17 0 lde trace t (by rw [h1, h2]; norm_num))
  (fun c => generateNonce_zero _ c) (rows := [[1, 2], [3, 4]]) rfl (by decide) 5
  (paths := [⟨[digest 1, digest 2, digest 3]⟩]) rfl (by decide)

section answering
variable {F T : Type} [Field F] [DecidableEq F] {Ch : Type} (env : Env F T) (rest : Nat → Commitment) {s r m : Nat}
  (ρ : Fin s → Commitment) (ζ : Fin r → Commitment) (κ : Fin m → Commitment)

omit [DecidableEq F] in
theorem answering_appendFrame {frame : Frame F} {t t' : Nat}
    (h : appendFrame (answering env rest ρ ζ κ) frame t = .ok t') : t' = t := by
  unfold appendFrame at h
  simp only [Outcome.bind_eq_ok] at h
  obtain ⟨n, -, h⟩ := h
  generalize List.range n = l at h
  induction l generalizing t with
  | nil =>
    simp only [List.foldlM_nil, Outcome.pure_eq, Outcome.ok.injEq] at h
    exact h.symm
  | cons i l ih =>
    simp only [List.foldlM_cons, Outcome.bind_eq_ok, Outcome.pure_eq, Outcome.ok.injEq] at h
    obtain ⟨u, ⟨row, -, rfl⟩, h⟩ := h
    refine (ih h).trans ?_
    clear h
    induction row with
    | nil => rfl
    | cons x row ih => exact ih

/-- The point is the first candidate if it is outside of the domains. -/
theorem answering_first {lde trace : List F} {n : Nat} {z : F} {t : Nat}
    (hout : env.ofDigest ((answering env rest ρ ζ κ).tr.challenge n).1 ∉ lde ++ trace)
    (h : (answering env rest ρ ζ κ).tr.sampleZOod (answering env rest ρ ζ κ).ofDigest lde trace n = some (z, t)) :
    z = env.ofDigest ((answering env rest ρ ζ κ).tr.challenge n).1 ∧ t = n + 1 := by
  obtain ⟨-, -, k, hk, hj⟩ := (C51_outside _ _ _ _ _ _ _).mp h
  have hk0 : k = 0 := by
    by_contra hne
    have := hj 0 (by omega)
    rw [answering_after] at this
    exact hout (List.mem_append.mpr this)
  subst hk0
  rw [answering_after] at hk
  exact ⟨congrArg Prod.fst hk, congrArg Prod.snd hk⟩

end answering

variable {T : Type} {env : Env FE T}

/-- With drawn digests a complete proof is accepted, except with small probability. -/
theorem shaped_forged_probability (hta : env.ta = starkRoots)
    (hof : ∀ d, randomnessToField 252 d = .ok (env.ofDigest d))
    (pi : PublicInputs) (hsteps : pi.numSteps ≠ 0) (hmin : pi.rangeCheckMin ≠ none) (hmax : pi.rangeCheckMax ≠ none)
    {a : Nat} (ha : 1 ≤ a) (hab : a + 2 < 64) (rest : Nat → Commitment) {s n : Nat}
    (hs : s = 3 + 2 * 8 + 2 * (if pi.memorySegments = [] then 49 else 50)) (hn : n < 2 ^ 64)
    (root0 root1 : Commitment) (path0 path1 : MerkleProof) (hp0 : path0.merklePath.length = a + 2)
    (hp1 : path1.merklePath.length = a + 2) :
    1 - (pi.publicMemory.length / 2 ^ 251 + (2 ^ (a + 2) + 2 ^ a) / 2 ^ 251 + 2 ^ (a + 2) / 2 ^ 251 + (1 / 2) ^ n)
      ≤ probability ((Fin (s + 5) → Commitment) × (Fin n → Commitment)) fun ω =>
          ∃ proof, proof.nonce < 2 ^ 64 ∧ proof.ldeTraceMerkleRoots = [root0, root1] ∧
            (∀ o ∈ proof.deepPolyOpenings, o.ldeTraceMerkleProofs = [path0, path1]) ∧
            ProofShape proof a 2 (traceColumns (hasRcBuiltin pi)) 2 2 3 ∧
            verifyCairoProof (answering env rest ω.1 (Fin.elim0 : Fin 0 → Commitment) ω.2) proof pi
              ProofOptions.defaultTestOptions = .ok true := by
  have S := cairo_setting ha pi
  have hnt : s = (air (2 ^ a) pi ProofOptions.defaultTestOptions).numRapChallenges + 2 * 8
      + 2 * (air (2 ^ a) pi ProofOptions.defaultTestOptions).context.numTransitionConstraints := by
    show s = 3 + 2 * 8 + 2 * numTransitionConstraints (hasRcBuiltin pi)
    rw [hs, show hasRcBuiltin pi = !pi.memorySegments.isEmpty from rfl]
    cases pi.memorySegments <;> rfl
  obtain ⟨d, hd⟩ := domain_exists (ta := env.ta) S.rows S.length S.blowup hab (by rw [hta]; show _ ≤ 192; omega)
  obtain ⟨g, w, D⟩ := domain_new S.rows S.length S.blowup hd
  have hd1 : d.ldeRootsOfUnityCoset.length = 2 ^ (a + 2) := D.lde_length
  have hd2 : d.traceRootsOfUnity.length = 2 ^ a := by rw [D.traceRoots]; simp
  let dens : FE → List FE := fun α => pi.publicMemory.map fun e => e.1 + α * e.2
  let vals : FE → FE → List FE := fun z γ1 =>
    d.ldeRootsOfUnityCoset.map fun x => -(γ1 / (x - z * g)) * (x - z)
  let bad1 : (Fin (s + 5) → Commitment) → Prop := fun ρ =>
    env.ofDigest (ρ ⟨1, by omega⟩) ∈ dens (env.ofDigest (ρ ⟨0, by omega⟩))
  let bad2 : (Fin (s + 5) → Commitment) → Prop := fun ρ =>
    env.ofDigest (ρ ⟨s, by omega⟩) ∈ d.ldeRootsOfUnityCoset ++ d.traceRootsOfUnity
  let bad3 : (Fin (s + 5) → Commitment) → Prop := fun ρ =>
    env.ofDigest (ρ ⟨s + 3, by omega⟩) ∈ vals (env.ofDigest (ρ ⟨s, by omega⟩)) (env.ofDigest (ρ ⟨s + 4, by omega⟩))
  let bad4 : (Fin n → Commitment) → Prop := fun κ => ∀ i, ¬ 2 ^ 1 ∣ beNat ((κ i).val.take 8)
  have e1 : probability (Fin (s + 5) → Commitment) bad1 ≤ pi.publicMemory.length / 2 ^ 251 := by
    refine probability_coordinate ⟨1, by omega⟩ (by positivity) fun l => ?_
    have h0 : ∀ x : Commitment, Function.update l (⟨1, by omega⟩ : Fin (s + 5)) x ⟨0, by omega⟩ = l ⟨0, by omega⟩ :=
      fun x => Function.update_of_ne (by simp) _ _
    have hd0 : (dens (env.ofDigest (l ⟨0, by omega⟩))).length = pi.publicMemory.length := List.length_map _
    have hc := probability_challenge hof (dens (env.ofDigest (l ⟨0, by omega⟩)))
    rw [hd0] at hc
    simp only [bad1, Function.update_self, h0]
    exact hc
  have e2 : probability (Fin (s + 5) → Commitment) bad2 ≤ (2 ^ (a + 2) + 2 ^ a) / 2 ^ 251 := by
    refine probability_coordinate ⟨s, by omega⟩ (by positivity) fun l => ?_
    have hc := probability_challenge hof (d.ldeRootsOfUnityCoset ++ d.traceRootsOfUnity)
    rw [List.length_append, hd1, hd2] at hc
    push_cast at hc
    simp only [bad2, Function.update_self]
    exact hc
  have e3 : probability (Fin (s + 5) → Commitment) bad3 ≤ 2 ^ (a + 2) / 2 ^ 251 := by
    refine probability_coordinate ⟨s + 3, by omega⟩ (by positivity) fun l => ?_
    have h0 : ∀ x : Commitment, Function.update l (⟨s + 3, by omega⟩ : Fin (s + 5)) x ⟨s, by omega⟩ = l ⟨s, by omega⟩ :=
      fun x => Function.update_of_ne (by simp) _ _
    have h4 : ∀ x : Commitment, Function.update l (⟨s + 3, by omega⟩ : Fin (s + 5)) x ⟨s + 4, by omega⟩
        = l ⟨s + 4, by omega⟩ := fun x => Function.update_of_ne (by simp) _ _
    have hc := probability_challenge hof (vals (env.ofDigest (l ⟨s, by omega⟩)) (env.ofDigest (l ⟨s + 4, by omega⟩)))
    rw [List.length_map, hd1] at hc
    push_cast at hc
    simp only [bad3, Function.update_self, h0, h4]
    exact hc
  have e4 : probability (Fin n → Commitment) bad4 ≤ (1 / 2) ^ n := by
    rw [probability_all n fun x : Commitment => ¬ 2 ^ 1 ∣ beNat (x.val.take 8)]
    refine pow_le_pow_left₀ (probability_nonneg _) ((probability_target (by norm_num)).trans ?_) n
    norm_num
  rw [probability_not, sub_le_sub_iff_left]
  refine (probability_mono (Q := fun ω : (Fin (s + 5) → Commitment) × (Fin n → Commitment) =>
    ((bad1 ω.1 ∨ bad2 ω.1) ∨ bad3 ω.1) ∨ bad4 ω.2) ?_).trans ((probability_or _ _).trans (add_le_add
      ((probability_fst (Y := Fin n → Commitment) fun ρ => (bad1 ρ ∨ bad2 ρ) ∨ bad3 ρ).trans
        ((probability_or _ _).trans (add_le_add ((probability_or _ _).trans (add_le_add e1 e2)) e3)))
      (probability_snd (by positivity) fun _ => e4)))
  rintro ⟨ρ, κ⟩ hfail
  by_contra hgood
  simp only [not_or] at hgood
  obtain ⟨⟨⟨g1, g2⟩, g3⟩, g4⟩ := hgood
  apply hfail
  set e := answering env rest ρ (Fin.elim0 : Fin 0 → Commitment) κ with he
  have hcall : ∀ i (hi : i < s + 5), (e.tr.challenge i).1 = ρ ⟨i, hi⟩ := fun i hi => by
    show (if h : i < s + 5 then ρ ⟨i, h⟩ else _) = _
    rw [dif_pos hi]
  have hch : challengesAfter e (air (2 ^ a) pi ProofOptions.defaultTestOptions) root0
      = ⟨env.ofDigest (ρ ⟨0, by omega⟩), env.ofDigest (ρ ⟨1, by omega⟩), env.ofDigest (ρ ⟨2, by omega⟩)⟩ := by
    unfold challengesAfter buildRapChallenges
    rw [he, answering_samples, ← he]
    show (⟨env.ofDigest (e.tr.challenge (0 + 0)).1, env.ofDigest (e.tr.challenge (0 + 1)).1,
      env.ofDigest (e.tr.challenge (0 + 2)).1⟩ : RAPChallenges FE) = _
    rw [hcall _ (by omega), hcall _ (by omega), hcall _ (by omega)]
  obtain ⟨cs, hcs⟩ := boundary_exists pi hsteps hmin hmax (n := 2 ^ a) (by positivity)
    ⟨env.ofDigest (ρ ⟨0, by omega⟩), env.ofDigest (ρ ⟨1, by omega⟩), env.ofDigest (ρ ⟨2, by omega⟩)⟩
    (fun e he hc => g1 (List.mem_map.2 ⟨e, he, hc.symm⟩))
  have hcl : cs.length = 8 := by
    obtain ⟨-, -, lo, hi, -, -, -, rfl⟩ := boundaryConstraints_ok hcs
    rfl
  have hbefore : ∀ rootH, beforePoint e (air (2 ^ a) pi ProofOptions.defaultTestOptions) [root0, root1] cs.length rootH
      = s := fun rootH => by rw [hcl, he, answering_beforePoint, ← hnt]
  have hout : env.ofDigest (e.tr.challenge s).1 ∉ d.ldeRootsOfUnityCoset ++ d.traceRootsOfUnity := by
    rw [hcall _ (by omega)]
    exact g2
  obtain ⟨proof, c, t, t6, t7, g', -, h1, -, -, hnonce, h5, h6, -, h8, h9, h10, h11, -, -, -, h12⟩ :=
    shaped_forgery_at (env := e) (new := CairoAir.new) (pi := pi) S hab
      (fun w z hw i => square_notMem' (by omega) (hw : env.ta.root (a + 2) = some w) three_not_square
        (show a + 2 < env.ta.adicity by rw [hta]; show _ < 192; omega) z i) rfl rfl
      (air_polynomial _ _ _) root0 [root1] (bcs := cs) (by rw [hch]; exact hcs) (boundary_columns hcs)
      (d := d) hd (fun _ _ hnone => by
        rw [hbefore] at hnone
        unfold sampleZOod at hnone
        rw [dif_pos ⟨0, by
          rw [List.mem_append, not_or] at hout
          rw [he, answering_after]
          exact hout⟩] at hnone
        cases hnone)
      (answering_nonce env rest ρ _ κ hn (g := 1) (by norm_num) (by
        by_contra hc
        exact g4 fun i hi => hc ⟨i, hi⟩))
      (rows := List.replicate 2 (List.replicate (traceColumns (hasRcBuiltin pi)) 0)) rfl
      (fun r hr => by rw [(List.mem_replicate.mp hr).2, List.length_replicate]; rfl) 0
      (paths := [path0, path1]) rfl (fun p hp => by
        rcases List.mem_cons.mp hp with rfl | hp
        · exact hp0
        · rw [List.mem_singleton.mp hp]
          exact hp1)
  refine ⟨proof, hnonce, h1, h5, h6, h12 fun iota _ x hx => ?_⟩
  obtain rfl : g = g' := Option.some.inj (D.hg.symm.trans h8)
  rw [hbefore] at h9
  obtain ⟨hcz, rfl⟩ := answering_first env rest ρ _ κ hout h9
  obtain rfl : t7 = s + 1 := answering_appendFrame env rest ρ _ κ h10
  rw [hcall _ (by omega)] at hcz
  have hrow : c.traceTermCoeffs.head? = some [env.ofDigest (ρ ⟨s + 3, by omega⟩), env.ofDigest (ρ ⟨s + 4, by omega⟩)] := by
    rw [h11]
    obtain ⟨k, hk⟩ : ∃ k, (air (2 ^ a) pi ProofOptions.defaultTestOptions).context.traceColumns = k + 1 :=
      Nat.exists_eq_succ_of_ne_zero S.fits.columns_pos.ne'
    rw [hk]
    show some (e.samples 2 (s + 1 + 1 + 1)).1 = _
    rw [he, answering_samples, ← he]
    show some [env.ofDigest (e.tr.challenge (s + 1 + 1 + 1 + 0)).1, env.ofDigest (e.tr.challenge (s + 1 + 1 + 1 + 1)).1] = _
    rw [hcall _ (by omega), hcall _ (by omega)]
  refine ⟨_, List.mem_of_head? hrow, ?_⟩
  have hmem := List.mem_of_getElem? hx
  have hzx : x - c.z ≠ 0 := by
    rw [sub_ne_zero, hcz]
    rintro rfl
    exact g2 (List.mem_append_left _ hmem)
  intro h0
  apply g3
  refine List.mem_map.mpr ⟨x, hmem, ?_⟩
  have h0' : env.ofDigest (ρ ⟨s + 3, by omega⟩) / (x - c.z) + env.ofDigest (ρ ⟨s + 4, by omega⟩) / (x - c.z * g) = 0 := by
    simpa [openedWeight, List.range_succ] using h0
  rw [← hcz, ← eq_neg_of_add_eq_zero_left h0', div_mul_cancel₀ _ hzx]

/-- **C94** refuted with drawn digests: for every claimed run, of any length, whose public inputs have a step and bounds
for the range check, and for any two commitments to the trace and any authentication paths, a complete proof is accepted
except with probability at most the sum of `|public memory| / 2^251`, `(2^(a+2) + 2^a) / 2^251` for the out-of-domain point,
`2^(a+2) / 2^251` for the coefficients of the first column, and `(1/2)^n` for `n` nonces. -/
theorem C94_forged_probability (hta : env.ta = starkRoots)
    (hof : ∀ d, randomnessToField 252 d = .ok (env.ofDigest d))
    (pi : PublicInputs) (hsteps : pi.numSteps ≠ 0) (hmin : pi.rangeCheckMin ≠ none) (hmax : pi.rangeCheckMax ≠ none)
    {a : Nat} (ha : 1 ≤ a) (hab : a + 2 < 64) (rest : Nat → Commitment) {s n : Nat}
    (hs : s = 3 + 2 * 8 + 2 * (if pi.memorySegments = [] then 49 else 50)) (hn : n < 2 ^ 64)
    (root0 root1 : Commitment) (path0 path1 : MerkleProof) (hp0 : path0.merklePath.length = a + 2)
    (hp1 : path1.merklePath.length = a + 2) :
    1 - (pi.publicMemory.length / 2 ^ 251 + (2 ^ (a + 2) + 2 ^ a) / 2 ^ 251 + 2 ^ (a + 2) / 2 ^ 251 + (1 / 2) ^ n)
      ≤ probability ((Fin (s + 5) → Commitment) × (Fin n → Commitment)) fun ω =>
          ∃ proof, proof.ldeTraceMerkleRoots = [root0, root1] ∧
            (∀ o ∈ proof.deepPolyOpenings, o.ldeTraceMerkleProofs = [path0, path1]) ∧
            ProofShape proof a 2 (traceColumns (hasRcBuiltin pi)) 2 2 3 ∧
            verifyCairoProof (answering env rest ω.1 (Fin.elim0 : Fin 0 → Commitment) ω.2) proof pi
              ProofOptions.defaultTestOptions = .ok true :=
  (shaped_forged_probability hta hof pi hsteps hmin hmax ha hab rest hs hn root0 root1 path0 path1 hp0 hp1).trans
    (probability_mono fun _ ⟨proof, _, h⟩ => ⟨proof, h⟩)

/-- The claimed run of one step that begins and ends at different instructions, with two rows and 100 nonces. -/
example (rest : Nat → Commitment) (d0 d1 d2 : Commitment) :
    99 / 100 ≤ probability ((Fin 122 → Commitment) × (Fin 100 → Commitment)) fun ω =>
      ∃ proof, proof.ldeTraceMerkleRoots = [d0, d1] ∧
        (∀ o ∈ proof.deepPolyOpenings, o.ldeTraceMerkleProofs = [⟨[d0, d1, d2]⟩, ⟨[d2, d2, d2]⟩]) ∧
        ProofShape proof 1 2 52 2 2 3 ∧
        verifyCairoProof (answering envDrawn rest ω.1 (Fin.elim0 : Fin 0 → Commitment) ω.2) proof falseStatement
          ProofOptions.defaultTestOptions = .ok true := by
  refine le_trans ?_ (C94_forged_probability (env := envDrawn) rfl envDrawn_challenges falseStatement (by decide)
    (by decide) (by decide) (a := 1) le_rfl (by norm_num) rest (s := 117) (n := 100) rfl (by norm_num) d0 d1
    ⟨[d0, d1, d2]⟩ ⟨[d2, d2, d2]⟩ rfl rfl)
  simp only [falseStatement, List.length_nil]
  norm_num

/-- A complete proof can be written to a file. -/
theorem shaped_file_of (pi : PublicInputs) (hwf : pi.WF) (hsize : pi.publicMemory.length < 2 ^ 57) {a : Nat} (ha : 1 ≤ a)
    (hab : a + 2 < 64) {proof : StarkProof FE} (h1 : proof.nonce < 2 ^ 64)
    (h4 : ProofShape proof a 2 (traceColumns (hasRcBuiltin pi)) 2 2 3) :
    ∃ file, readProofFile file = .ok (proof, pi) ∧
      file.length = 8 + proofBytes a 2 (traceColumns (hasRcBuiltin pi)) 2 2 3 + pi.serialize.length := by
  have hc : traceColumns (hasRcBuiltin pi) ≤ 61 := by cases hasRcBuiltin pi <;> decide
  obtain ⟨bs, hbs, hlen⟩ := C62_proof_size ha h4
  have hpil := publicInputs_length pi
  have hsl := segments_le hwf.segs_wf
  have hsized : MachineSized proof :=
    ⟨by rw [h4.traceLength]; exact Nat.pow_lt_pow_right (by norm_num) (by omega), h1,
      by rw [h4.frameWidth]; omega⟩
  have hfl : (beBytes 8 bs.length ++ bs ++ pi.serialize).length
      = 8 + proofBytes a 2 (traceColumns (hasRcBuiltin pi)) 2 2 3 + pi.serialize.length := by
    simp only [List.length_append, length_beBytes, hlen]
  have hsmall : proofBytes a 2 (traceColumns (hasRcBuiltin pi)) 2 2 3 < 2 ^ 40 := by
    have hq : queryBytes a 2 ≤ 2 ^ 20 := by
      rw [C62_query_bytes]
      have : a * a ≤ 63 * 63 := Nat.mul_le_mul (by omega) (by omega)
      omega
    generalize traceColumns (hasRcBuiltin pi) = cols at hc
    simp only [proofBytes, openingBytes, pathBytes]
    omega
  have hread := C08_proof_file_roundtrip proof pi hsized hwf (beBytes 8 bs.length ++ bs ++ pi.serialize) (by
      unfold writeProofFile
      rw [hbs]
      rfl) (by
      rw [hfl]
      omega)
  exact ⟨_, hread, hfl⟩

/-- **C94** refuted for files: with the same probability there is a file with a complete proof, as long as the file that
the command `prove` writes for a run of that length, which the command `verify` accepts. -/
theorem C94_forged_file_probability (hta : env.ta = starkRoots)
    (hof : ∀ d, randomnessToField 252 d = .ok (env.ofDigest d))
    (pi : PublicInputs) (hwf : pi.WF) (hsize : pi.publicMemory.length < 2 ^ 57)
    (hsteps : pi.numSteps ≠ 0) (hmin : pi.rangeCheckMin ≠ none) (hmax : pi.rangeCheckMax ≠ none)
    {a : Nat} (ha : 1 ≤ a) (hab : a + 2 < 64) (rest : Nat → Commitment) {s n : Nat}
    (hs : s = 3 + 2 * 8 + 2 * (if pi.memorySegments = [] then 49 else 50)) (hn : n < 2 ^ 64)
    (root0 root1 : Commitment) (path0 path1 : MerkleProof) (hp0 : path0.merklePath.length = a + 2)
    (hp1 : path1.merklePath.length = a + 2) :
    1 - (pi.publicMemory.length / 2 ^ 251 + (2 ^ (a + 2) + 2 ^ a) / 2 ^ 251 + 2 ^ (a + 2) / 2 ^ 251 + (1 / 2) ^ n)
      ≤ probability ((Fin (s + 5) → Commitment) × (Fin n → Commitment)) fun ω =>
          ∃ file proof, readProofFile file = .ok (proof, pi) ∧ proof.ldeTraceMerkleRoots = [root0, root1] ∧
            (∀ o ∈ proof.deepPolyOpenings, o.ldeTraceMerkleProofs = [path0, path1]) ∧
            ProofShape proof a 2 (traceColumns (hasRcBuiltin pi)) 2 2 3 ∧
            file.length = 8 + proofBytes a 2 (traceColumns (hasRcBuiltin pi)) 2 2 3 + pi.serialize.length ∧
            ∀ (vm : Vm) (w : World) (name path : String) (args : List String), w.read path = some file →
              Cli.main (answering env rest ω.1 (Fin.elim0 : Fin 0 → Commitment) ω.2) vm w
                (name :: "verify" :: path :: args) = .ok (.verdict true) := by
  refine (shaped_forged_probability hta hof pi hsteps hmin hmax ha hab rest hs hn root0 root1 path0 path1 hp0 hp1).trans
    (probability_mono ?_)
  rintro ω ⟨proof, h1, h2, h3, h4, h5⟩
  obtain ⟨file, hread, hfl⟩ := shaped_file_of pi hwf hsize ha hab h1 h4
  exact ⟨file, proof, hread, h2, h3, h4, hfl,
    fun vm w name path rest hr => C61_accepted_files_partial.2 ⟨_, _, _, hr, hread, h5⟩⟩

/-- A file of 11022 bytes for the same claimed run. -/
example (rest : Nat → Commitment) (d0 d1 d2 : Commitment) :
    99 / 100 ≤ probability ((Fin 122 → Commitment) × (Fin 100 → Commitment)) fun ω =>
      ∃ file proof, readProofFile file = .ok (proof, falseStatement) ∧ proof.ldeTraceMerkleRoots = [d0, d1] ∧
        file.length = 11022 ∧
        ∀ (vm : Vm) (w : World) (name path : String) (args : List String), w.read path = some file →
          Cli.main (answering envDrawn rest ω.1 (Fin.elim0 : Fin 0 → Commitment) ω.2) vm w
            (name :: "verify" :: path :: args) = .ok (.verdict true) := by
  refine le_trans ?_ ((C94_forged_file_probability (env := envDrawn) rfl envDrawn_challenges falseStatement
    ⟨List.nodup_nil, by simp [falseStatement], List.nodup_nil, by decide⟩ (by decide) (by decide)
    (by decide) (by decide) (a := 1) le_rfl (by norm_num) rest (s := 117) (n := 100) rfl (by norm_num) d0 d1
    ⟨[d0, d1, d2]⟩ ⟨[d2, d2, d2]⟩ rfl rfl).trans (probability_mono fun ω ⟨file, proof, h1, h2, _, _, h5, h6⟩ =>
      ⟨file, proof, h1, h2, h5.trans (by decide +kernel), h6⟩))
  simp only [falseStatement, List.length_nil]
  norm_num

/-- **C94** is false: there is a claim that no trace satisfies, such that for all hash functions of the Merkle trees, all
lengths of the run, all commitments to the trace and all authentication paths there are challenges for which a complete
proof of the claim is accepted. -/
theorem C94_false_statement_accepted :
    ∃ pi : PublicInputs,
      (∀ (rows : List (List FE)) width options ch, ¬ Satisfies (air rows.length pi options) rows width ch) ∧
      ∀ {T : Type} (env : Env FE T), env.ta = starkRoots →
        (∀ d, randomnessToField 252 d = .ok (env.ofDigest d)) → ∀ a, 1 ≤ a → a + 2 < 64 →
        ∀ (root0 root1 : Commitment) (path0 path1 : MerkleProof), path0.merklePath.length = a + 2 →
          path1.merklePath.length = a + 2 →
          ∃ (env' : Env FE Nat) (proof : StarkProof FE), env'.ta = env.ta ∧ env'.hashes = env.hashes ∧
            env'.toBytes = env.toBytes ∧ env'.ofDigest = env.ofDigest ∧
            proof.ldeTraceMerkleRoots = [root0, root1] ∧
            (∀ o ∈ proof.deepPolyOpenings, o.ldeTraceMerkleProofs = [path0, path1]) ∧
            ProofShape proof a 2 (traceColumns (hasRcBuiltin pi)) 2 2 3 ∧
            verifyCairoProof env' proof pi ProofOptions.defaultTestOptions = .ok true := by
  refine ⟨falseStatement, falseStatement_unsatisfiable, fun env hta hof a ha hab root0 root1 path0 path1 hp0 hp1 => ?_⟩
  by_contra hno
  have h := C94_forged_probability hta hof falseStatement (by decide) (by decide) (by decide) ha hab (fun _ => root0)
    (s := 117) (n := 2) rfl (by norm_num) root0 root1 path0 path1 hp0 hp1
  have h' := h.trans (probability_mono (Q := fun _ => False) fun ω ⟨proof, h1, h2, h3, h4⟩ =>
    hno ⟨_, proof, rfl, rfl, rfl, rfl, h1, h2, h3, h4⟩)
  rw [probability_false] at h'
  have h1 : (2 : ℚ) ^ (a + 2) ≤ 2 ^ 63 := pow_le_pow_right₀ (by norm_num) (by omega)
  have h2 : (2 : ℚ) ^ a ≤ 2 ^ 63 := pow_le_pow_right₀ (by norm_num) (by omega)
  have h3 : ((2 : ℚ) ^ (a + 2) + 2 ^ a) / 2 ^ 251 ≤ 1 / 4 := by
    rw [div_le_iff₀ (by positivity)]
    refine (add_le_add h1 h2).trans ?_
    norm_num
  have h4 : (2 : ℚ) ^ (a + 2) / 2 ^ 251 ≤ 1 / 4 := by
    rw [div_le_iff₀ (by positivity)]
    refine h1.trans ?_
    norm_num
  simp only [falseStatement, List.length_nil, Nat.cast_zero, zero_div, zero_add] at h'
  linarith

/-- The hypotheses of `C94_false_statement_accepted` are met. -/
example : ∃ (env : Env FE Nat) (pi : PublicInputs) (proof : StarkProof FE), env.ta = starkRoots ∧
    ProofShape proof 5 2 (traceColumns (hasRcBuiltin pi)) 2 2 3 ∧
    (∀ (rows : List (List FE)) width options ch, ¬ Satisfies (air rows.length pi options) rows width ch) ∧
    verifyCairoProof env proof pi ProofOptions.defaultTestOptions = .ok true := by
  obtain ⟨pi, h1, h2⟩ := C94_false_statement_accepted
  obtain ⟨env, proof, h3, -, -, -, -, -, h4, h5⟩ := h2 envDrawn rfl envDrawn_challenges 5 (by norm_num) (by norm_num)
    (Examples.digest 0) (Examples.digest 1) ⟨List.replicate 7 (Examples.digest 2)⟩
    ⟨List.replicate 7 (Examples.digest 3)⟩ rfl rfl
  exact ⟨env, pi, proof, h3, h4, h1, h5⟩

end Verif.Props
