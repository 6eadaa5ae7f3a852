import Verif.Props.RandomRun
import Verif.Props.Succinct
import Verif.Props.Release

/-!
# C46 and C61 with drawn digests: forging fails only with small probability
-/

namespace Verif.Props
open Runner Cli Verif.Spec Random Proximity CairoAir ExecTrace Transcript TraceTable
variable {T : Type} {env : Env FE T}

/-- Three independent draws, each with an event that can go wrong. -/
theorem probability_three {A B C : Type} [Fintype A] [Fintype B] [Fintype C] [Nonempty A] [Nonempty B] [Nonempty C]
    {P : A × B × C → Prop} {bad1 : A → Prop} {bad2 : B → Prop} {bad3 : C → Prop} {ε1 ε2 ε3 : ℚ}
    (h : ∀ ω, ¬ P ω → bad1 ω.1 ∨ bad2 ω.2.1 ∨ bad3 ω.2.2)
    (h1 : probability A bad1 ≤ ε1) (h2 : probability B bad2 ≤ ε2) (h3 : probability C bad3 ≤ ε3) :
    1 - (ε1 + ε2 + ε3) ≤ probability (A × B × C) P := by
  have p2 := (probability_nonneg _).trans h2
  have p3 := (probability_nonneg _).trans h3
  rw [probability_not, sub_le_sub_iff_left]
  refine (probability_mono h).trans ((probability_or _ _).trans ?_)
  have e1 := (probability_fst (Y := B × C) bad1).trans h1
  have e2 : probability (A × B × C) (fun ω => bad2 ω.2.1 ∨ bad3 ω.2.2) ≤ ε2 + ε3 := by
    refine probability_snd (add_nonneg p2 p3) fun _ => (probability_or _ _).trans (add_le_add ?_ ?_)
    · exact (probability_fst (Y := C) bad2).trans h2
    · exact probability_snd p3 fun _ => h3
  linarith

/-- For drawn digests, the proof assembled without a run is accepted except with small probability. -/
theorem forged_probability (hta : env.ta = starkRoots) (hof : ∀ d, randomnessToField 252 d = .ok (env.ofDigest d))
    (pi : PublicInputs) (hsteps : pi.numSteps ≠ 0) (hmin : pi.rangeCheckMin ≠ none) (hmax : pi.rangeCheckMax ≠ none)
    {a : Nat} (ha : 1 ≤ a) (hab : a + 2 < 64) (rest : Nat → Commitment) {s : Nat} (r : Nat) {n : Nat}
    (hs : s = 3 + 2 * 8 + 2 * (if pi.memorySegments = [] then 49 else 50)) (hn : n < 2 ^ 64) :
    1 - (pi.publicMemory.length / 2 ^ 251 + ((2 ^ (a + 2) + 2 ^ a) / 2 ^ 251) ^ r + (1 / 2) ^ n)
      ≤ probability ((Fin s → Commitment) × (Fin r → Commitment) × (Fin n → Commitment)) fun ω =>
          ∃ even nonce, nonce < 2 ^ 64 ∧ verify (answering env rest ω.1 ω.2.1 ω.2.2) CairoAir.new
            (zeroForgery zeroRoot a pi even nonce) pi ProofOptions.defaultTestOptions = .ok true := by
  have S := cairo_setting ha pi
  have hs3 : 3 ≤ s := by omega
  have hnt : s = (air (2 ^ a) pi ProofOptions.defaultTestOptions).numRapChallenges + 2 * 8
      + 2 * (air (2 ^ a) pi ProofOptions.defaultTestOptions).context.numTransitionConstraints := by
    show s = 3 + 2 * 8 + 2 * numTransitionConstraints (hasRcBuiltin pi)
    rw [hs, show hasRcBuiltin pi = !pi.memorySegments.isEmpty from rfl]
    cases pi.memorySegments <;> rfl
  obtain ⟨d, hd⟩ := domain_exists (ta := env.ta) S.rows S.length S.blowup hab (by rw [hta]; show _ ≤ 192; omega)
  obtain ⟨g, w, D⟩ := domain_new S.rows S.length S.blowup hd
  have hd1 : d.ldeRootsOfUnityCoset.length = 2 ^ (a + 2) := D.lde_length
  have hd2 : d.traceRootsOfUnity.length = 2 ^ a := by rw [D.traceRoots]; simp
  let dens : FE → List FE := fun α => pi.publicMemory.map fun e => e.1 + α * e.2
  let bad1 : (Fin s → Commitment) → Prop := fun ρ => env.ofDigest (ρ ⟨1, by omega⟩) ∈ dens (env.ofDigest (ρ ⟨0, by omega⟩))
  refine probability_three (bad1 := bad1)
    (bad2 := fun ζ : Fin r → Commitment => ∀ i, env.ofDigest (ζ i) ∈ d.ldeRootsOfUnityCoset ++ d.traceRootsOfUnity)
    (bad3 := fun κ : Fin n → Commitment => ∀ i, ¬ 2 ^ 1 ∣ beNat ((κ i).val.take 8)) ?_ ?_ ?_ ?_
  · rintro ⟨ρ, ζ, κ⟩ hfail
    by_contra hgood
    simp only [not_or] at hgood
    obtain ⟨g1, g3, g4⟩ := hgood
    apply hfail
    have hch : (buildRapChallenges (answering env rest ρ ζ κ) (air (2 ^ a) pi ProofOptions.defaultTestOptions)
        ((answering env rest ρ ζ κ).tr.append (answering env rest ρ ζ κ).tr.init (List.replicate 32 0))).1
        = ⟨env.ofDigest (ρ ⟨0, by omega⟩), env.ofDigest (ρ ⟨1, by omega⟩), env.ofDigest (ρ ⟨2, by omega⟩)⟩ := by
      unfold buildRapChallenges
      rw [answering_samples]
      have h0 : (answering env rest ρ ζ κ).tr.append (answering env rest ρ ζ κ).tr.init (List.replicate 32 0) = 0 := rfl
      have hc : ∀ i (hi : i < s), ((answering env rest ρ ζ κ).tr.challenge i).1 = ρ ⟨i, hi⟩ := fun i hi => by
        show (if h : i < s then ρ ⟨i, h⟩ else _) = _
        rw [dif_pos hi]
      rw [h0]
      show (⟨env.ofDigest ((answering env rest ρ ζ κ).tr.challenge (0 + 0)).1,
        env.ofDigest ((answering env rest ρ ζ κ).tr.challenge (0 + 1)).1,
        env.ofDigest ((answering env rest ρ ζ κ).tr.challenge (0 + 2)).1⟩ : RAPChallenges FE) = _
      rw [hc _ (by omega), hc _ (by omega), hc _ (by omega)]
    obtain ⟨cs, hcs⟩ := boundary_exists pi hsteps hmin hmax (n := 2 ^ a) (by positivity)
      ⟨env.ofDigest (ρ ⟨0, by omega⟩), env.ofDigest (ρ ⟨1, by omega⟩), env.ofDigest (ρ ⟨2, by omega⟩)⟩
      (fun e he hc => g1 (List.mem_map.2 ⟨e, he, hc.symm⟩))
    have hcl : cs.length = 8 := by
      obtain ⟨-, -, lo, hi, -, -, -, rfl⟩ := boundaryConstraints_ok hcs
      rfl
    refine forgery_accepted_at (env := answering env rest ρ ζ κ) S
      (fun w z hw i => square_notMem' (by omega) (hw : env.ta.root (a + 2) = some w) three_not_square
        (show a + 2 < env.ta.adicity by rw [hta]; show _ < 192; omega) z i) rfl rfl (fun ch => ⟨_, air_polynomial _ _ _ ch⟩)
      ⟨List.replicate 32 0, List.length_replicate⟩ ⟨List.replicate 32 0, List.length_replicate⟩ (bcs := cs)
      ?_ (boundary_columns hcs) hd ?_ ?_
      (rows := List.replicate 2 (List.replicate (traceColumns (hasRcBuiltin pi)) 0)) rfl
      (fun r hr => by rw [(List.mem_replicate.mp hr).2, List.length_replicate]; rfl) 0 0 le_rfl
    · rw [hch]
      exact hcs
    · rw [hcl, answering_beforePoint, ← hnt]
      refine answering_point env rest ρ ζ κ ?_
      by_contra hc
      exact g3 fun i => by by_contra hi; exact hc ⟨i, hi⟩
    · intro challenge
      refine answering_nonce env rest ρ ζ κ hn (g := 1) (by norm_num) ?_ challenge
      by_contra hc
      exact g4 fun i hi => hc ⟨i, hi⟩
  · refine probability_coordinate ⟨1, by omega⟩ (by positivity) fun l => ?_
    have h0 : ∀ x : Commitment, Function.update l (⟨1, by omega⟩ : Fin s) x ⟨0, by omega⟩ = l ⟨0, by omega⟩ := fun x =>
      Function.update_of_ne (by simp) _ _
    have hd0 : (dens (env.ofDigest (l ⟨0, by omega⟩))).length = pi.publicMemory.length := List.length_map _
    have hc := probability_challenge hof (dens (env.ofDigest (l ⟨0, by omega⟩)))
    rw [hd0] at hc
    simp only [bad1, Function.update_self, h0]
    exact hc
  · rw [probability_all r fun x => env.ofDigest x ∈ d.ldeRootsOfUnityCoset ++ d.traceRootsOfUnity]
    refine pow_le_pow_left₀ (probability_nonneg _) ((probability_challenge hof _).trans ?_) r
    rw [List.length_append, hd1, hd2]
    push_cast
    rfl
  · rw [probability_all n fun x : Commitment => ¬ 2 ^ 1 ∣ beNat (x.val.take 8)]
    refine pow_le_pow_left₀ (probability_nonneg _) ((probability_target (by norm_num)).trans ?_) n
    norm_num

/-- **C46** refuted with drawn digests: for every claimed run, of any length, whose public inputs have a step and
bounds for the range check, a proof assembled without a run is accepted except with probability at most the sum of
`|public memory| / 2^251`, `((2^(a+2) + 2^a) / 2^251)^r` for `r` candidates for the out-of-domain point and `(1/2)^n` for
`n` nonces. -/
theorem C46_forged_probability (hta : env.ta = starkRoots)
    (hof : ∀ d, randomnessToField 252 d = .ok (env.ofDigest d))
    (pi : PublicInputs) (hsteps : pi.numSteps ≠ 0) (hmin : pi.rangeCheckMin ≠ none) (hmax : pi.rangeCheckMax ≠ none)
    {a : Nat} (ha : 1 ≤ a) (hab : a + 2 < 64) (rest : Nat → Commitment) {s : Nat} (r : Nat) {n : Nat}
    (hs : s = 3 + 2 * 8 + 2 * (if pi.memorySegments = [] then 49 else 50)) (hn : n < 2 ^ 64) :
    1 - (pi.publicMemory.length / 2 ^ 251 + ((2 ^ (a + 2) + 2 ^ a) / 2 ^ 251) ^ r + (1 / 2) ^ n)
      ≤ probability ((Fin s → Commitment) × (Fin r → Commitment) × (Fin n → Commitment)) fun ω =>
          ∃ proof, proof.traceLength = 2 ^ a ∧ proof.friLayersMerkleRoots = [] ∧ proof.deepPolyOpenings = [] ∧
            verifyCairoProof (answering env rest ω.1 ω.2.1 ω.2.2) proof pi ProofOptions.defaultTestOptions
              = .ok true := by
  refine (forged_probability hta hof pi hsteps hmin hmax ha hab rest r hs hn).trans (probability_mono ?_)
  rintro ω ⟨even, nonce, -, h⟩
  exact ⟨_, rfl, rfl, rfl, h⟩

/-- **C61** refuted with drawn digests: the same for a file and the command `verify`. -/
theorem C61_forged_file_probability (hta : env.ta = starkRoots)
    (hof : ∀ d, randomnessToField 252 d = .ok (env.ofDigest d))
    (pi : PublicInputs) (hwf : pi.WF) (hsize : pi.publicMemory.length < 2 ^ 57)
    (hsteps : pi.numSteps ≠ 0) (hmin : pi.rangeCheckMin ≠ none) (hmax : pi.rangeCheckMax ≠ none)
    {a : Nat} (ha : 1 ≤ a) (hab : a + 2 < 64) (rest : Nat → Commitment) {s : Nat} (r : Nat) {n : Nat}
    (hs : s = 3 + 2 * 8 + 2 * (if pi.memorySegments = [] then 49 else 50)) (hn : n < 2 ^ 64) :
    1 - (pi.publicMemory.length / 2 ^ 251 + ((2 ^ (a + 2) + 2 ^ a) / 2 ^ 251) ^ r + (1 / 2) ^ n)
      ≤ probability ((Fin s → Commitment) × (Fin r → Commitment) × (Fin n → Commitment)) fun ω =>
          ∃ file proof, readProofFile file = .ok (proof, pi) ∧
            ∀ (vm : Vm) (w : World) (name path : String) (args : List String), w.read path = some file →
              Cli.main (answering env rest ω.1 ω.2.1 ω.2.2) vm w (name :: "verify" :: path :: args)
                = .ok (.verdict true) := by
  refine (forged_probability hta hof pi hsteps hmin hmax ha hab rest r hs hn).trans (probability_mono ?_)
  rintro ω ⟨even, nonce, hnonce, h⟩
  obtain ⟨file, proof, hread, -, -, -, hv⟩ := forged_file_of pi hwf hsize hab hnonce h
  exact ⟨file, proof, hread, fun vm w name path rest hr => C61_accepted_files_partial.2 ⟨_, _, _, hr, hread, hv⟩⟩

/-- **C76** refuted with drawn digests: for every number of rows, a file of at most 4100 bytes for which the verifier
lists four times that number of elements is accepted, except when the candidates for the point or the nonces run out. -/
theorem C76_small_file_probability (hta : env.ta = starkRoots)
    (hof : ∀ d, randomnessToField 252 d = .ok (env.ofDigest d))
    {a : Nat} (ha : 1 ≤ a) (hab : a + 2 < 64) (rest : Nat → Commitment) (r : Nat) {n : Nat} (hn : n < 2 ^ 64) :
    1 - (((2 ^ (a + 2) + 2 ^ a) / 2 ^ 251) ^ r + (1 / 2) ^ n)
      ≤ probability ((Fin 117 → Commitment) × (Fin r → Commitment) × (Fin n → Commitment)) fun ω =>
          ∃ file proof pi d, file.length ≤ 4100 ∧ readProofFile file = .ok (proof, pi) ∧
            (∀ (vm : Vm) (w : World) (name path : String) (args : List String), w.read path = some file →
              Cli.main (answering env rest ω.1 ω.2.1 ω.2.2) vm w (name :: "verify" :: path :: args)
                = .ok (.verdict true)) ∧
            Domain.new env.ta (air proof.traceLength pi ProofOptions.defaultTestOptions) = .ok d ∧
            d.ldeRootsOfUnityCoset.length = 2 ^ (a + 2) := by
  have h := forged_probability hta hof falseStatement (by decide) (by decide) (by decide) ha hab rest (s := 117) r rfl hn
  rw [show falseStatement.publicMemory.length = 0 from rfl, Nat.cast_zero, zero_div, zero_add] at h
  refine h.trans (probability_mono ?_)
  rintro ω ⟨even, nonce, hnonce, h⟩
  obtain ⟨file, proof, hread, hlen, hq, hfile, hv⟩ := forged_file_of falseStatement
    ⟨List.nodup_nil, by simp [falseStatement], List.nodup_nil, by decide⟩ (by decide) hab hnonce h
  have S := cairo_setting ha falseStatement
  obtain ⟨d, hd, -, hl⟩ := C76_domain_listed (new := CairoAir.new) (pi := falseStatement) (by rw [hlen]; rfl) S
    (by rw [hq]; exact le_rfl) hv
  refine ⟨file, proof, falseStatement, d, ?_, hread,
    fun vm w name path rest hr => C61_accepted_files_partial.2 ⟨_, _, _, hr, hread, hv⟩, by rw [hlen]; exact hd, ?_⟩
  · have h1 := publicInputs_length falseStatement
    rw [hfile, show traceColumns (hasRcBuiltin falseStatement) = 52 by decide]
    have h2 : falseStatement.memorySegments.length = 0 := rfl
    have h3 : falseStatement.publicMemory.length = 0 := rfl
    omega
  · rw [hl, S.length, S.blowup, pow_add]

/-- **C74** with drawn digests: for every claim of zero steps there is a proof that the release build accepts and on which
the debug build panics, with the probability of C46. -/
theorem C74_zero_steps_probability (hta : env.ta = starkRoots)
    (hof : ∀ d, randomnessToField 252 d = .ok (env.ofDigest d))
    (pi : PublicInputs) (hzero : pi.numSteps = 0) (hmin : pi.rangeCheckMin ≠ none) (hmax : pi.rangeCheckMax ≠ none)
    {a : Nat} (ha : 1 ≤ a) (hab : a + 2 < 64) (rest : Nat → Commitment) {s : Nat} (r : Nat) {n : Nat}
    (hs : s = 3 + 2 * 8 + 2 * (if pi.memorySegments = [] then 49 else 50)) (hn : n < 2 ^ 64) :
    1 - (pi.publicMemory.length / 2 ^ 251 + ((2 ^ (a + 2) + 2 ^ a) / 2 ^ 251) ^ r + (1 / 2) ^ n)
      ≤ probability ((Fin s → Commitment) × (Fin r → Commitment) × (Fin n → Commitment)) fun ω =>
          ∃ proof,
            verifyCairoProofRelease (answering env rest ω.1 ω.2.1 ω.2.2) proof pi ProofOptions.defaultTestOptions
              = .ok true ∧
            verifyCairoProofDebug (answering env rest ω.1 ω.2.1 ω.2.2) proof pi ProofOptions.defaultTestOptions
              = .panic := by
  refine (forged_probability hta hof { pi with numSteps := 2 ^ a } (by simp) hmin hmax ha hab rest r hs hn).trans
    (probability_mono ?_)
  rintro ω ⟨even, nonce, -, h⟩
  refine ⟨_, zero_steps_of hzero ha hab rfl rfl (fun d hd => ?_) h⟩
  rw [(List.mem_replicate.mp hd).2]
  simp

/-- **C55** with drawn digests: on every proof of the right shape for public inputs with a step and bounds for the range
check, the verifier returns true or false except with probability at most `|public memory| / 2^251`, for a challenge that
is in the memory, plus `((2^(a+b) + 2^a) / 2^251)^r`, for `r` candidates for the out-of-domain point that are all in the
domains. -/
theorem C55_answers_probability (hta : env.ta = starkRoots) (hof : ∀ d, randomnessToField 252 d = .ok (env.ofDigest d))
    (pi : PublicInputs) (hsteps : pi.numSteps ≠ 0) (hmin : pi.rangeCheckMin ≠ none) (hmax : pi.rangeCheckMax ≠ none)
    {options : ProofOptions} {a b : Nat} (ha : 1 ≤ a) (hb1 : 1 ≤ b) (hab : a + b < 64)
    (hbl : options.blowupFactor.toNat = 2 ^ b) (hsq : ¬ IsSquare (options.cosetOffset : FE))
    {proof : StarkProof FE} (hlen : proof.traceLength = 2 ^ a) (W : WellFormed (air (2 ^ a) pi options) proof (a + b))
    (rest : Nat → Commitment) {s : Nat} (r n : Nat)
    (hs : s = 3 + 2 * 8 + 2 * (if pi.memorySegments = [] then 49 else 50)) :
    1 - (pi.publicMemory.length / 2 ^ 251 + ((2 ^ (a + b) + 2 ^ a) / 2 ^ 251) ^ r)
      ≤ probability ((Fin s → Commitment) × (Fin r → Commitment) × (Fin n → Commitment)) fun ω =>
          verifyCairoProof (answering env rest ω.1 ω.2.1 ω.2.2) proof pi options = .ok true ∨
          verifyCairoProof (answering env rest ω.1 ω.2.1 ω.2.2) proof pi options = .ok false := by
  have S := cairo_setting_of ha hb1 pi hbl hsq
  have hnt : s = (air (2 ^ a) pi options).numRapChallenges + 2 * 8
      + 2 * (air (2 ^ a) pi options).context.numTransitionConstraints := by
    show s = 3 + 2 * 8 + 2 * numTransitionConstraints (hasRcBuiltin pi)
    rw [hs, show hasRcBuiltin pi = !pi.memorySegments.isEmpty from rfl]
    cases pi.memorySegments <;> rfl
  obtain ⟨d, hd⟩ := domain_exists (ta := env.ta) S.rows S.length S.blowup hab (by rw [hta]; show _ ≤ 192; omega)
  obtain ⟨g, w, D⟩ := domain_new S.rows S.length S.blowup hd
  have hd1 : d.ldeRootsOfUnityCoset.length = 2 ^ (a + b) := D.lde_length
  have hd2 : d.traceRootsOfUnity.length = 2 ^ a := by rw [D.traceRoots]; simp
  let dens : FE → List FE := fun α => pi.publicMemory.map fun e => e.1 + α * e.2
  let bad1 : (Fin s → Commitment) → Prop := fun ρ => env.ofDigest (ρ ⟨1, by omega⟩) ∈ dens (env.ofDigest (ρ ⟨0, by omega⟩))
  have h3 : probability (Fin n → Commitment) (fun _ => False) ≤ 0 := probability_false.le
  have := probability_three (P := fun ω : (Fin s → Commitment) × (Fin r → Commitment) × (Fin n → Commitment) =>
      verifyCairoProof (answering env rest ω.1 ω.2.1 ω.2.2) proof pi options = .ok true ∨
      verifyCairoProof (answering env rest ω.1 ω.2.1 ω.2.2) proof pi options = .ok false) (bad1 := bad1)
    (bad2 := fun ζ : Fin r → Commitment => ∀ i, env.ofDigest (ζ i) ∈ d.ldeRootsOfUnityCoset ++ d.traceRootsOfUnity)
    (ε1 := pi.publicMemory.length / 2 ^ 251) (ε2 := ((2 ^ (a + b) + 2 ^ a) / 2 ^ 251) ^ r) ?_ ?_ ?_ h3
  · rwa [add_zero] at this
  · rintro ⟨ρ, ζ, κ⟩ hfail
    by_contra hgood
    simp only [not_or] at hgood
    obtain ⟨g1, g3, -⟩ := hgood
    apply hfail
    obtain ⟨root0, roots, hroots⟩ := List.exists_cons_of_ne_nil W.roots
    have hch : (buildRapChallenges (answering env rest ρ ζ κ) (air (2 ^ a) pi options)
        ((answering env rest ρ ζ κ).tr.append (answering env rest ρ ζ κ).tr.init root0.val)).1
        = ⟨env.ofDigest (ρ ⟨0, by omega⟩), env.ofDigest (ρ ⟨1, by omega⟩), env.ofDigest (ρ ⟨2, by omega⟩)⟩ := by
      unfold buildRapChallenges
      rw [answering_samples]
      have h0 : (answering env rest ρ ζ κ).tr.append (answering env rest ρ ζ κ).tr.init root0.val = 0 := rfl
      have hc : ∀ i (hi : i < s), ((answering env rest ρ ζ κ).tr.challenge i).1 = ρ ⟨i, hi⟩ := fun i hi => by
        show (if h : i < s then ρ ⟨i, h⟩ else _) = _
        rw [dif_pos hi]
      rw [h0]
      show (⟨env.ofDigest ((answering env rest ρ ζ κ).tr.challenge (0 + 0)).1,
        env.ofDigest ((answering env rest ρ ζ κ).tr.challenge (0 + 1)).1,
        env.ofDigest ((answering env rest ρ ζ κ).tr.challenge (0 + 2)).1⟩ : RAPChallenges FE) = _
      rw [hc _ (by omega), hc _ (by omega), hc _ (by omega)]
    obtain ⟨cs, hcs⟩ := boundary_exists pi hsteps hmin hmax (n := 2 ^ a) (by positivity)
      ⟨env.ofDigest (ρ ⟨0, by omega⟩), env.ofDigest (ρ ⟨1, by omega⟩), env.ofDigest (ρ ⟨2, by omega⟩)⟩
      (fun e he hc => g1 (List.mem_map.2 ⟨e, he, hc.symm⟩))
    have hcl : cs.length = 8 := by
      obtain ⟨-, -, lo, hi, -, -, -, rfl⟩ := boundaryConstraints_ok hcs
      rfl
    obtain ⟨v, hv⟩ := verify_exists_at (env := answering env rest ρ ζ κ) (new := CairoAir.new) (pi := pi)
      (options := options) (by rw [hlen]; rfl) rfl S hab (show a + b ≤ env.ta.adicity by rw [hta]; show _ ≤ 192; omega)
      (fun w z hw i => square_notMem' (by omega) (hw : env.ta.root (a + b) = some w) hsq
        (show a + b < env.ta.adicity by rw [hta]; show _ < 192; omega) z i) (fun ch => ⟨_, air_polynomial _ _ _ ch⟩)
      hroots (bcs := cs) (by rw [hch]; exact hcs) (boundary_columns hcs) (fun d' hd' => by
        obtain rfl : d = d' := Outcome.ok.inj (hd.symm.trans hd')
        rw [hroots, hcl, answering_beforePoint, ← hnt]
        refine answering_point env rest ρ ζ κ ?_
        by_contra hc
        exact g3 fun i => by by_contra hi; exact hc ⟨i, hi⟩) W
    cases v
    · exact .inr hv
    · exact .inl hv
  · refine probability_coordinate ⟨1, by omega⟩ (by positivity) fun l => ?_
    have h0 : ∀ x : Commitment, Function.update l (⟨1, by omega⟩ : Fin s) x ⟨0, by omega⟩ = l ⟨0, by omega⟩ := fun x =>
      Function.update_of_ne (by simp) _ _
    have hd0 : (dens (env.ofDigest (l ⟨0, by omega⟩))).length = pi.publicMemory.length := List.length_map _
    have hc := probability_challenge hof (dens (env.ofDigest (l ⟨0, by omega⟩)))
    rw [hd0] at hc
    simp only [bad1, Function.update_self, h0]
    exact hc
  · rw [probability_all r fun x => env.ofDigest x ∈ d.ldeRootsOfUnityCoset ++ d.traceRootsOfUnity]
    refine pow_le_pow_left₀ (probability_nonneg _) ((probability_challenge hof _).trans ?_) r
    rw [List.length_append, hd1, hd2]
    push_cast
    rfl

/-- A proof with arbitrary values, for a public memory with two cells. -/
example (rest : Nat → Commitment) (x : FE) :
    let pi := { falseStatement with publicMemory := [(1, 2), (3, 4)] }
    let proof := forgery (2 ^ 1) (Examples.digest 0) (Examples.digest 0) ⟨List.replicate 104 x, 52⟩ 1 2 3 3 0
    1 - (2 / 2 ^ 251 + (10 / 2 ^ 251) ^ 1)
      ≤ probability ((Fin 117 → Commitment) × (Fin 1 → Commitment) × (Fin 0 → Commitment)) fun ω =>
        verifyCairoProof (answering envDrawn rest ω.1 ω.2.1 ω.2.2) { proof with friLastValue := x } pi
          ProofOptions.defaultTestOptions = .ok true ∨
        verifyCairoProof (answering envDrawn rest ω.1 ω.2.1 ω.2.2) { proof with friLastValue := x } pi
          ProofOptions.defaultTestOptions = .ok false := by
  intro pi proof
  have := C55_answers_probability (env := envDrawn) rfl envDrawn_challenges pi (by decide) (by decide) (by decide)
    (options := ProofOptions.defaultTestOptions) (a := 1) (b := 2) le_rfl (by norm_num) (by norm_num) (by decide)
    (by exact_mod_cast three_not_square) (proof := { proof with friLastValue := x }) rfl
    ⟨by simp [proof, forgery], rfl, by simp [proof, forgery, air, hasRcBuiltin, pi, falseStatement, traceColumns],
      by simp [proof, forgery], by simp [proof, forgery], by simp [proof, forgery]⟩ rest (s := 117) 1 0 rfl
  refine le_trans (le_of_eq ?_) this
  rw [show pi.publicMemory.length = 2 from rfl]
  norm_num

/-- The false statement of C46, which no trace satisfies, claimed for a million rows: the command `verify` accepts a
file with it with probability at least `1 - 1/2^99`, over the digests before the point, one candidate for the point and
100 nonces. -/
example (rest : Nat → Commitment) :
    1 - 1 / 2 ^ 99 ≤ probability ((Fin 117 → Commitment) × (Fin 1 → Commitment) × (Fin 100 → Commitment)) fun ω =>
      ∃ file proof, readProofFile file = .ok (proof, falseStatement) ∧
        ∀ (vm : Vm) (w : World) (name path : String) (args : List String), w.read path = some file →
          Cli.main (answering envDrawn rest ω.1 ω.2.1 ω.2.2) vm w (name :: "verify" :: path :: args)
            = .ok (.verdict true) := by
  have := C61_forged_file_probability (env := envDrawn) rfl envDrawn_challenges falseStatement
    ⟨List.nodup_nil, by simp [falseStatement], List.nodup_nil, by decide⟩ (by decide) (by decide) (by decide)
    (by decide) (a := 20) (by norm_num) (by norm_num) rest (s := 117) 1 (n := 100) rfl (by norm_num)
  refine le_trans ?_ this
  rw [show falseStatement.publicMemory.length = 0 from rfl]
  norm_num

end Verif.Props
