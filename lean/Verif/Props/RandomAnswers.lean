import Verif.Props.RandomHash
import Verif.Lemmas.VerifyTalk

/-!
# C55 for random hash functions
-/

namespace Verif.Props
open Runner Cli Verif.Spec Random Proximity CairoAir ExecTrace Transcript TraceTable
variable {T : Type} {env : Env FE T}

/-- The verifier for Cairo answers on drawn digests when the challenge is no denominator. -/
theorem verifier_answers_draws (hta : env.ta = starkRoots)
    (pi : PublicInputs) (hsteps : pi.numSteps ≠ 0) (hmin : pi.rangeCheckMin ≠ none) (hmax : pi.rangeCheckMax ≠ none)
    {options : ProofOptions} {a b : Nat} (ha : 1 ≤ a) (hb1 : 1 ≤ b) (hab : a + b < 64)
    (hbl : options.blowupFactor.toNat = 2 ^ b) (hsq : ¬ IsSquare (options.cosetOffset : FE))
    {proof : StarkProof FE} (hlen : proof.traceLength = 2 ^ a) (W : WellFormed (air (2 ^ a) pi options) proof (a + b))
    {d : Domain FE} (hd : Domain.new env.ta (air (2 ^ a) pi options) = .ok d)
    {d0 : Commitment} (hd0 : env.ofDigest d0 ∉ d.ldeRootsOfUnityCoset ++ d.traceRootsOfUnity) {N n : Nat} (hN : 3 ≤ N)
    (δ : Fin N → Commitment) (κ : Fin n → Commitment)
    (hg : env.ofDigest (δ ⟨1, by omega⟩) ∉ pi.publicMemory.map
      (fun e => e.1 + env.ofDigest (δ ⟨0, by omega⟩) * e.2)) :
    ∃ v, verifyCairoProof (answering env (fun _ => d0) δ (r := 0) Fin.elim0 κ) proof pi options = .ok v := by
  have S := cairo_setting_of ha hb1 pi hbl hsq
  obtain ⟨root0, roots, hroots⟩ := List.exists_cons_of_ne_nil W.roots
  have hch : (buildRapChallenges (answering env (fun _ => d0) δ (r := 0) Fin.elim0 κ) (air (2 ^ a) pi options)
      ((answering env (fun _ => d0) δ (r := 0) Fin.elim0 κ).tr.append
        (answering env (fun _ => d0) δ (r := 0) Fin.elim0 κ).tr.init root0.val)).1
      = ⟨env.ofDigest (δ ⟨0, by omega⟩), env.ofDigest (δ ⟨1, by omega⟩), env.ofDigest (δ ⟨2, by omega⟩)⟩ := by
    unfold buildRapChallenges
    rw [answering_samples]
    have h0 : (answering env (fun _ => d0) δ (r := 0) Fin.elim0 κ).tr.append
      (answering env (fun _ => d0) δ (r := 0) Fin.elim0 κ).tr.init root0.val = 0 := rfl
    have hc : ∀ i (hi : i < N), ((answering env (fun _ => d0) δ (r := 0) Fin.elim0 κ).tr.challenge i).1
        = δ ⟨i, hi⟩ := fun i hi => by
      show (if h : i < N then δ ⟨i, h⟩ else _) = _
      rw [dif_pos hi]
    rw [h0]
    show (⟨env.ofDigest ((answering env (fun _ => d0) δ (r := 0) Fin.elim0 κ).tr.challenge (0 + 0)).1,
      env.ofDigest ((answering env (fun _ => d0) δ (r := 0) Fin.elim0 κ).tr.challenge (0 + 1)).1,
      env.ofDigest ((answering env (fun _ => d0) δ (r := 0) Fin.elim0 κ).tr.challenge (0 + 2)).1⟩
        : RAPChallenges FE) = _
    rw [hc _ (by omega), hc _ (by omega), hc _ (by omega)]
  obtain ⟨cs, hcs⟩ := boundary_exists pi hsteps hmin hmax (n := 2 ^ a) (by positivity)
    ⟨env.ofDigest (δ ⟨0, by omega⟩), env.ofDigest (δ ⟨1, by omega⟩), env.ofDigest (δ ⟨2, by omega⟩)⟩
    (fun e he hc => hg (List.mem_map.2 ⟨e, he, hc.symm⟩))
  exact verify_exists_at (env := answering env (fun _ => d0) δ (r := 0) Fin.elim0 κ) (new := CairoAir.new) (pi := pi)
    (options := options) (by rw [hlen]; rfl) rfl S hab (show a + b ≤ env.ta.adicity by rw [hta]; show _ ≤ 192; omega)
    (fun w z hw i => square_notMem' (by omega) (hw : env.ta.root (a + b) = some w) hsq
      (show a + b < env.ta.adicity by rw [hta]; show _ < 192; omega) z i) (fun ch => ⟨_, air_polynomial _ _ _ ch⟩)
    hroots (bcs := cs) (by rw [hch]; exact hcs) (boundary_columns hcs) (fun d' hd' => by
      obtain rfl : d = d' := Outcome.ok.inj (hd.symm.trans hd')
      exact answering_point_late env δ κ hd0 _) W

/-- **C55** for random hash functions: on every proof of the right shape for public inputs with a step and bounds for the
range check, the verifier returns true or false except with probability at most that of `C55_answers_probability` and
`N (N + 1) / 2 / 2^256`, for the transcript to come back to a state it has been in. The hash functions are drawn as in
`C81_random_hash`, after the proof. `N` is the number of challenges the verifier asks for: those before the point, `r`
candidates for the point, two coefficients for the composition polynomial and two for each column, one challenge for each
FRI layer of the proof, the seed of the proof of work and the queries. -/
theorem C55_answers_random_hash (hta : env.ta = starkRoots) (hof : ∀ d, randomnessToField 252 d = .ok (env.ofDigest d))
    (pi : PublicInputs) (hsteps : pi.numSteps ≠ 0) (hmin : pi.rangeCheckMin ≠ none) (hmax : pi.rangeCheckMax ≠ none)
    {options : ProofOptions} {a b : Nat} (ha : 1 ≤ a) (hb1 : 1 ≤ b) (hab : a + b < 64)
    (hbl : options.blowupFactor.toNat = 2 ^ b) (hsq : ¬ IsSquare (options.cosetOffset : FE))
    {proof : StarkProof FE} (hlen : proof.traceLength = 2 ^ a) (W : WellFormed (air (2 ^ a) pi options) proof (a + b))
    (hnonce : proof.nonce < 2 ^ 64) {s columns N : Nat} (r : Nat)
    (hs : s = 3 + 2 * 8 + 2 * (if pi.memorySegments = [] then 49 else 50))
    (hcolumns : columns = if pi.memorySegments = [] then 52 else 61)
    (hN : N = s + r + 2 + 2 * columns + proof.friLayersMerkleRoots.length + 1 + options.friNumberOfQueries) :
    ∃ L₀, ∀ L ≥ L₀,
    1 - (pi.publicMemory.length / 2 ^ 251 + ((2 ^ (a + b) + 2 ^ a) / 2 ^ 251) ^ r + N * (N + 1) / 2 / 2 ^ 256)
      ≤ probability ((Message L → Commitment) × (WorkMessage → Commitment)) fun ω =>
          verifyCairoProof (hashing env ω.1 ω.2) proof pi options = .ok true ∨
          verifyCairoProof (hashing env ω.1 ω.2) proof pi options = .ok false := by
  have := Prog.commitment_nonempty
  have hnt : s = (air (2 ^ a) pi options).numRapChallenges + 2 * 8
      + 2 * (air (2 ^ a) pi options).context.numTransitionConstraints := draws_eq hs
  have hcol : columns = (air (2 ^ a) pi options).context.traceColumns := by
    show columns = traceColumns (hasRcBuiltin pi)
    rw [hcolumns]
    unfold hasRcBuiltin
    cases pi.memorySegments <;> rfl
  obtain ⟨d, hd⟩ := domain_exists (ta := env.ta) (air := air (2 ^ a) pi options) ha rfl hbl hab
    (by rw [hta]; show _ ≤ 192; omega)
  obtain ⟨g, w, D⟩ := domain_new (air := air (2 ^ a) pi options) ha rfl hbl hd
  have hd1 := D.lde_length
  have hd2 : d.traceRootsOfUnity.length = 2 ^ a := by rw [D.traceRoots, List.length_map, List.length_range]
  have hpoint : probability Commitment (fun x => env.ofDigest x ∈ d.ldeRootsOfUnityCoset ++ d.traceRootsOfUnity)
      ≤ (2 ^ (a + b) + 2 ^ a) / 2 ^ 251 := by
    refine (probability_challenge hof _).trans ?_
    rw [List.length_append, hd1, hd2]
    push_cast
    rfl
  obtain ⟨d0, hd0⟩ := exists_digest hof (l := d.ldeRootsOfUnityCoset ++ d.traceRootsOfUnity) (by
    rw [List.length_append, hd1, hd2]
    have h1 : 2 ^ (a + b) + 2 ^ a ≤ 2 ^ 64 := by
      have h2 : 2 ^ (a + b) ≤ 2 ^ 63 := Nat.pow_le_pow_right (by norm_num) (by omega)
      have h3 : 2 ^ a ≤ 2 ^ 63 := Nat.pow_le_pow_right (by norm_num) (by omega)
      omega
    calc ((2 ^ (a + b) + 2 ^ a : Nat) : ℚ) ≤ ((2 ^ 64 : Nat) : ℚ) := by exact_mod_cast h1
      _ < 2 ^ 251 := by norm_num)
  obtain ⟨p, hp1, hp2, hp3, hp4⟩ := Rep.step1 env (air (2 ^ a) pi options) proof d boundary_count r hnonce
  have hdraws : (air (2 ^ a) pi options).numRapChallenges + (2 * 8
      + 2 * (air (2 ^ a) pi options).context.numTransitionConstraints + r + Rep.drawsV (air (2 ^ a) pi options) proof)
      = N := by
    unfold Rep.drawsV
    rw [← hcol]
    show 3 + (2 * 8 + 2 * (air (2 ^ a) pi options).context.numTransitionConstraints + r
      + (2 + 2 * columns + proof.friLayersMerkleRoots.length + 1 + options.friNumberOfQueries)) = N
    have : s = 3 + 2 * 8 + 2 * (air (2 ^ a) pi options).context.numTransitionConstraints := hnt
    omega
  rw [hdraws] at hp1
  have e5 := hp3.trans (pow_le_pow_left₀ (probability_nonneg _) hpoint r)
  clear hp3
  refine ⟨p.width 0, fun L hL => ?_⟩
  rw [probability_not, sub_le_sub_iff_left]
  by_cases hq : proof.queryList.length < options.friNumberOfQueries
  · rw [show (fun ω : (Message L → Commitment) × (WorkMessage → Commitment) =>
        ¬ (verifyCairoProof (hashing env ω.1 ω.2) proof pi options = .ok true ∨
          verifyCairoProof (hashing env ω.1 ω.2) proof pi options = .ok false)) = fun _ => False by
      funext ω
      refine eq_false fun h => h (.inr ?_)
      unfold verifyCairoProof verify
      rw [if_pos hq]
      rfl, probability_false]
    positivity
  -- the answer, from what the program returns
  have key : ∀ (T : Type) (tr : Transcript T) (K : Bytes → Commitment) o t', p.run tr K tr.init = some (o, t') →
      verifyCairoProof (env.over tr K) proof pi options
        = o >>= fun c => Rep.verdict env (air (2 ^ a) pi options) d proof options.friNumberOfQueries c := by
    intro T tr K o t' hrun
    have h1 := hp4 T tr K tr.init o t' hrun
    cases o with
    | err e => exact e.elim
    | panic =>
      unfold verifyCairoProof verify
      rw [if_neg hq, show CairoAir.new proof.traceLength pi options = .ok (air (2 ^ a) pi options) by rw [hlen]; rfl,
        Rep.bind_ok', show Domain.new (env.over tr K).ta (air (2 ^ a) pi options) = .ok d from hd, Rep.bind_ok']
      rw [show step1 (env.over tr K) (air (2 ^ a) pi options) proof d (env.over tr K).tr.init = .panic from h1]
      rfl
    | ok c =>
      exact Rep.verify_eq_verdict (e := env.over tr K) (new := CairoAir.new) (air := air (2 ^ a) pi options)
        ⟨rfl, rfl, rfl, rfl, rfl, rfl, rfl, fun ch l l' h h' => by rw [Outcome.ok.inj (h.symm.trans h')]⟩
        (by rw [hlen]; rfl) hd h1
  let B : Option (Outcome Empty (Challenges FE (RAPChallenges FE))) → Prop := fun o =>
    ∀ x, o = some x → ∀ v, (x >>= fun c =>
      Rep.verdict env (air (2 ^ a) pi options) d proof options.friNumberOfQueries c) ≠ .ok v
  let place : (Fin N → Commitment) → (Fin (proof.nonce + 1) → Commitment) → Env FE Nat := fun δ κ =>
    answering env (fun _ => d0) δ (r := 0) Fin.elim0 κ
  have h1 : ∀ δ κ i b, (place δ κ).tr.append i b = i := fun _ _ _ _ => rfl
  have h2 : ∀ δ κ i (h : i < N), (place δ κ).tr.challenge i = (δ ⟨i, h⟩, i + 1) := fun δ κ i h => by
    show (if h : i < N then δ ⟨i, h⟩ else _, i + 1) = _
    rw [dif_pos h]
  have h3 : ∀ δ κ x (h : Prog.label x < proof.nonce + 1), (place δ κ).keccak x = κ ⟨Prog.label x, h⟩ := fun δ κ x h => by
    show (if h : leNat (x.drop 32) < proof.nonce + 1 then κ ⟨leNat (x.drop 32), h⟩ else _) = _
    exact dif_pos h
  have e1 := Prog.transfer env hp1 hp2 hL B (tr := fun δ κ => (place δ κ).tr) (K := fun δ κ => (place δ κ).keccak)
    h1 h2 h3
  have e2 := Prog.probability_stop hp1 hp2 (tr := fun δ κ => (place δ κ).tr) (K := fun δ κ => (place δ κ).keccak)
    h1 h2 h3
  let dens : FE → List FE := fun α => pi.publicMemory.map fun e => e.1 + α * e.2
  let bad : (Fin N → Commitment) → Prop := fun δ =>
    env.ofDigest (δ ⟨1, by omega⟩) ∈ dens (env.ofDigest (δ ⟨0, by omega⟩))
  have e3 : probability (Fin N → Commitment) bad ≤ pi.publicMemory.length / 2 ^ 251 := by
    refine probability_coordinate ⟨1, by omega⟩ (by positivity) fun l => ?_
    have h0 : ∀ x : Commitment, Function.update l (⟨1, by omega⟩ : Fin N) x ⟨0, by omega⟩ = l ⟨0, by omega⟩ := fun x =>
      Function.update_of_ne (by simp) _ _
    have hd0 : (dens (env.ofDigest (l ⟨0, by omega⟩))).length = pi.publicMemory.length := List.length_map _
    have hc := probability_challenge hof (dens (env.ofDigest (l ⟨0, by omega⟩)))
    rw [hd0] at hc
    simp only [bad, Function.update_self, h0]
    exact hc
  have e3' := (probability_fst (Y := Fin (proof.nonce + 1) → Commitment) bad).trans e3
  have e4 : probability ((Fin N → Commitment) × (Fin (proof.nonce + 1) → Commitment))
      (fun ω => B ((p.run (place ω.1 ω.2).tr (place ω.1 ω.2).keccak 0).map Prod.fst))
      ≤ p.stopProb + pi.publicMemory.length / 2 ^ 251 := by
    refine (probability_mono (Q := fun ω : (Fin N → Commitment) × (Fin (proof.nonce + 1) → Commitment) =>
      p.run (place ω.1 ω.2).tr (place ω.1 ω.2).keccak 0 = none ∨ bad ω.1) ?_).trans ((probability_or _ _).trans
      (add_le_add e2 e3'))
    rintro ⟨δ, κ⟩ hB
    by_contra hc
    rw [not_or] at hc
    obtain ⟨hc1, hc2⟩ := hc
    obtain ⟨v, hv⟩ := verifier_answers_draws hta pi hsteps hmin hmax ha hb1 hab hbl hsq hlen W hd hd0 (by omega) δ κ hc2
    obtain ⟨⟨o, t'⟩, hrun⟩ := Option.ne_none_iff_exists'.1 hc1
    refine hB o (by rw [hrun]; rfl) v ?_
    rw [← key Nat (place δ κ).tr (place δ κ).keccak o t' hrun]
    exact hv
  rw [card_commitment] at e1
  refine le_trans (probability_mono fun ω hω o ho v hv => hω ?_) (e1.trans ?_)
  · obtain ⟨⟨o', t'⟩, hrun, rfl⟩ := Option.map_eq_some_iff.1 ho
    have := key Bytes (hashing env ω.1 ω.2).tr (hashing env ω.1 ω.2).keccak o' t' hrun
    rw [over_hashing] at this
    rw [this, hv]
    cases v
    · exact .inr rfl
    · exact .inl rfl
  · linarith

/-- A proof with arbitrary values, for a public memory with two cells. -/
example (x : FE) :
    let pi := { falseStatement with publicMemory := [(1, 2), (3, 4)] }
    let proof := forgery (2 ^ 1) (Examples.digest 0) (Examples.digest 0) ⟨List.replicate 104 x, 52⟩ 1 2 3 3 0
    ∃ L₀, ∀ L ≥ L₀, 1 - 1 / 2 ^ 230
      ≤ probability ((Message L → Commitment) × (WorkMessage → Commitment)) fun ω =>
        verifyCairoProof (hashing envDrawn ω.1 ω.2) { proof with friLastValue := x } pi
          ProofOptions.defaultTestOptions = .ok true ∨
        verifyCairoProof (hashing envDrawn ω.1 ω.2) { proof with friLastValue := x } pi
          ProofOptions.defaultTestOptions = .ok false := by
  intro pi proof
  obtain ⟨L₀, h⟩ := C55_answers_random_hash (env := envDrawn) rfl envDrawn_challenges pi (by decide) (by decide)
    (by decide) (options := ProofOptions.defaultTestOptions) (a := 1) (b := 2) le_rfl (by norm_num) (by norm_num)
    (by decide) (by exact_mod_cast three_not_square) (proof := { proof with friLastValue := x }) rfl
    ⟨by simp [proof, forgery], rfl, by simp [proof, forgery, air, hasRcBuiltin, pi, falseStatement, traceColumns],
      by simp [proof, forgery], by simp [proof, forgery], by simp [proof, forgery]⟩
    (show 0 < 2 ^ 64 by norm_num) (s := 117) (columns := 52) (N := 228) 1 rfl rfl rfl
  refine ⟨L₀, fun L hL => le_trans ?_ (h L hL)⟩
  rw [show pi.publicMemory.length = 2 from rfl]
  norm_num

end Verif.Props
