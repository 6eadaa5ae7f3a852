import Verif.Props.RandomAnswers

/-!
# C46, C61, C74 and C76 for random hash functions
-/

namespace Verif.Props
open Runner Cli Verif.Spec Random Proximity CairoAir ExecTrace Transcript TraceTable
variable {T : Type} {env : Env FE T}

/-- At least one of finitely many events. -/
theorem probability_exists {X Y : Type} [Fintype X] [Fintype Y] {P : Y → X → Prop} {ε : ℚ}
    (h : ∀ y, probability X (P y) ≤ ε) : probability X (fun x => ∃ y, P y x) ≤ Fintype.card Y * ε := by
  classical
  have key : ∀ s : Finset Y, probability X (fun x => ∃ y ∈ s, P y x) ≤ s.card * ε := by
    intro s
    induction s using Finset.induction_on with
    | empty =>
      rw [Finset.card_empty, Nat.cast_zero, zero_mul]
      refine (probability_mono (Q := fun _ => False) fun x ⟨y, hy, _⟩ => absurd hy (Finset.notMem_empty y)).trans ?_
      rw [probability_eq, Finset.filter_false, Finset.card_empty, Nat.cast_zero, zero_div]
    | insert y s hy ih =>
      rw [Finset.card_insert_of_notMem hy, Nat.cast_add, Nat.cast_one]
      refine (probability_mono (Q := fun x => P y x ∨ ∃ y ∈ s, P y x) ?_).trans ((probability_or _ _).trans ?_)
      · rintro x ⟨y', hy', hp⟩
        rcases Finset.mem_insert.1 hy' with rfl | h'
        · exact .inl hp
        · exact .inr ⟨y', h', hp⟩
      · have := h y
        linarith
  refine (probability_mono fun x ⟨y, hy⟩ => ?_).trans (key Finset.univ)
  exact ⟨y, Finset.mem_univ y, hy⟩

/-- A random hash function has a nonce for a seed, except with small probability. -/
theorem probability_no_nonce (env : Env FE T) {g : Nat} (hg : g ≤ 64) (seed : Commitment) {n : Nat}
    (hn : n < 2 ^ 64 - 1) : ∃ L₀, ∀ L ≥ L₀,
    probability ((Message L → Commitment) × (WorkMessage → Commitment)) (fun ω =>
      Grinding.generateNonce (hashing env ω.1 ω.2).keccak seed g = none) ≤ (1 - 1 / 2 ^ g) ^ n := by
  have := Prog.commitment_nonempty
  obtain ⟨d0⟩ := Prog.commitment_nonempty
  obtain ⟨p, hp1, hp2, hp3, hp4⟩ := Rep.nonce seed (g := g) (m := n) (by omega)
  refine ⟨p.width 0, fun L hL => ?_⟩
  have hlate := fun κ => answering_nonce_late (zeroWork env) (N := 0) Fin.elim0 (m := n) κ (fun _ => d0) hn hg
    (fun b => by show beNat ((List.replicate 32 0).take 8) = 0; rfl) seed
  generalize Grinding.generateNonce = search at hp4 hlate ⊢
  let B : Option (Outcome Empty (Nat × Nat)) → Prop := fun o => ∀ x, o ≠ some (.ok x)
  let place : (Fin 0 → Commitment) → (Fin n → Commitment) → Env FE Nat := fun _ κ =>
    answering (zeroWork env) (fun _ => d0) (s := 0) Fin.elim0 (r := 0) Fin.elim0 κ
  have h1 : ∀ δ κ i b, (place δ κ).tr.append i b = i := fun _ _ _ _ => rfl
  have h2 : ∀ δ κ i (h : i < 0), (place δ κ).tr.challenge i = (δ ⟨i, h⟩, i + 1) := fun δ κ i h =>
    absurd h (Nat.not_lt_zero i)
  have h3 : ∀ δ κ x (h : Prog.label x < n), (place δ κ).keccak x = κ ⟨Prog.label x, h⟩ := fun δ κ x h => by
    show (if h : leNat (x.drop 32) < n then κ ⟨leNat (x.drop 32), h⟩ else _) = _
    exact dif_pos h
  have e1 := Prog.transfer env hp1 hp2 hL B (tr := fun δ κ => (place δ κ).tr) (K := fun δ κ => (place δ κ).keccak)
    h1 h2 h3
  have e2 := Prog.probability_stop hp1 hp2 (tr := fun δ κ => (place δ κ).tr) (K := fun δ κ => (place δ κ).keccak)
    h1 h2 h3
  have e3 : probability ((Fin 0 → Commitment) × (Fin n → Commitment))
      (fun ω => B ((p.run (place ω.1 ω.2).tr (place ω.1 ω.2).keccak 0).map Prod.fst)) ≤ p.stopProb := by
    refine (probability_mono ?_).trans e2
    rintro ⟨δ, κ⟩ hB
    by_contra hc
    obtain ⟨⟨o, t'⟩, hrun⟩ := Option.ne_none_iff_exists'.1 hc
    have ho := hp4 Nat (place δ κ).tr (place δ κ).keccak 0 o t' hrun
    obtain ⟨k, hk⟩ := Option.ne_none_iff_exists'.1 (hlate κ)
    dsimp only at ho
    rw [show search (place δ κ).keccak seed g = some k from hk] at ho
    cases o with
    | err e => exact e.elim
    | panic => cases ho
    | ok x => exact hB x (by rw [hrun]; rfl)
  have e4 : probability Commitment (fun d => ¬ g ≤ trailingZeros 64 (beNat (d.val.take 8))) ≤ 1 - 1 / 2 ^ g := by
    refine le_trans (probability_mono fun x hx => ?_) (probability_target hg)
    intro hc
    exact hx ((le_trailingZeros 64 _ _ (by
      have h1 := beNat_lt (x.val.take 8)
      rw [List.length_take, x.property] at h1
      exact h1.trans_le (by norm_num))).2 ⟨hg, hc⟩)
  have e5 := hp3.trans (pow_le_pow_left₀ (probability_nonneg _) e4 n)
  refine le_trans (probability_mono fun ω hω x hc => ?_) (e1.trans ?_)
  · obtain ⟨⟨o, t'⟩, hrun, ho⟩ := Option.map_eq_some_iff.1 hc
    have ho' := hp4 Bytes (hashing env ω.1 ω.2).tr (hashing env ω.1 ω.2).keccak [] o t' hrun
    dsimp only at ho'
    rw [hω, show o = .ok x from ho] at ho'
    cases ho'
  · rw [Nat.cast_zero, zero_mul, zero_div, zero_div, add_zero]
    exact e3.trans e5

/-- A random hash function has nonces for all seeds, except with small probability. -/
theorem probability_no_nonces (env : Env FE T) {g : Nat} (hg : g ≤ 64) {n : Nat} (hn : n < 2 ^ 64 - 1) :
    ∃ L₀, ∀ L ≥ L₀, probability ((Message L → Commitment) × (WorkMessage → Commitment)) (fun ω =>
      ∃ seed, Grinding.generateNonce (hashing env ω.1 ω.2).keccak seed g = none) ≤ 2 ^ 256 * (1 - 1 / 2 ^ g) ^ n := by
  choose l hl using fun seed => probability_no_nonce env hg seed hn
  refine ⟨Finset.univ.sup l, fun L hL => ?_⟩
  have := probability_exists fun seed => hl seed L ((Finset.le_sup (Finset.mem_univ seed)).trans hL)
  rwa [card_commitment] at this

/-- For random hash functions, the proof assembled without a run is accepted except with small probability. -/
theorem forged_random_hash (hta : env.ta = starkRoots) (hof : ∀ d, randomnessToField 252 d = .ok (env.ofDigest d))
    (pi : PublicInputs) (hsteps : pi.numSteps ≠ 0) (hmin : pi.rangeCheckMin ≠ none) (hmax : pi.rangeCheckMax ≠ none)
    {a : Nat} (ha : 1 ≤ a) (hab : a + 2 < 64) {N : Nat} (r : Nat) {n : Nat}
    (hN : N = 3 + 2 * 8 + 2 * (if pi.memorySegments = [] then 49 else 50) + r) (hn : n < 2 ^ 64 - 1) :
    ∃ L₀, ∀ L ≥ L₀,
    1 - (pi.publicMemory.length / 2 ^ 251 + ((2 ^ (a + 2) + 2 ^ a) / 2 ^ 251) ^ r + 2 ^ 256 * (1 / 2) ^ n
        + N * (N + 1) / 2 / 2 ^ 256)
      ≤ probability ((Message L → Commitment) × (WorkMessage → Commitment)) fun ω =>
          ∃ even nonce, nonce < 2 ^ 64 ∧ verify (hashing env ω.1 ω.2) CairoAir.new
            (zeroForgery zeroRoot a pi even nonce) pi ProofOptions.defaultTestOptions = .ok true := by
  have := Prog.commitment_nonempty
  have S := cairo_setting ha pi
  have hnt : 3 + 2 * 8 + 2 * (if pi.memorySegments = [] then 49 else 50)
      = (air (2 ^ a) pi ProofOptions.defaultTestOptions).numRapChallenges + 2 * 8
      + 2 * (air (2 ^ a) pi ProofOptions.defaultTestOptions).context.numTransitionConstraints := draws_eq rfl
  obtain ⟨d, hd⟩ := domain_exists (ta := env.ta) S.rows S.length S.blowup hab (by rw [hta]; show _ ≤ 192; omega)
  obtain ⟨g, w, D⟩ := domain_new S.rows S.length S.blowup hd
  have hd1 : d.ldeRootsOfUnityCoset.length = 2 ^ (a + 2) := D.lde_length
  have hd2 : d.traceRootsOfUnity.length = 2 ^ a := by rw [D.traceRoots, List.length_map, List.length_range]
  have hpoint : probability Commitment (fun x => env.ofDigest x ∈ d.ldeRootsOfUnityCoset ++ d.traceRootsOfUnity)
      ≤ (2 ^ (a + 2) + 2 ^ a) / 2 ^ 251 := by
    refine (probability_challenge hof _).trans ?_
    rw [List.length_append, hd1, hd2]
    push_cast
    rfl
  obtain ⟨d0, hd0⟩ := exists_digest hof (l := d.ldeRootsOfUnityCoset ++ d.traceRootsOfUnity) (by
    rw [List.length_append, hd1, hd2]
    have h1 : 2 ^ (a + 2) + 2 ^ a ≤ 2 ^ 64 := by
      have h2 : 2 ^ (a + 2) ≤ 2 ^ 63 := Nat.pow_le_pow_right (by norm_num) (by omega)
      have h3 : 2 ^ a ≤ 2 ^ 63 := Nat.pow_le_pow_right (by norm_num) (by omega)
      omega
    calc ((2 ^ (a + 2) + 2 ^ a : Nat) : ℚ) ≤ ((2 ^ 64 : Nat) : ℚ) := by exact_mod_cast h1
      _ < 2 ^ 251 := by norm_num)
  obtain ⟨p, hp1, hp2, hp3, hp4⟩ := Rep.toPoint_rep env (air (2 ^ a) pi ProofOptions.defaultTestOptions) d
    ⟨List.replicate 32 0, List.length_replicate⟩ ⟨List.replicate 32 0, List.length_replicate⟩ boundary_count r
  rw [← hnt, ← hN] at hp1
  have e5 := hp3.trans (pow_le_pow_left₀ (probability_nonneg _) hpoint r)
  clear hp3
  obtain ⟨L₁, hL₁⟩ := probability_no_nonces env (g := 1) (by norm_num) hn
  refine ⟨max (p.width 0) L₁, fun L hL => ?_⟩
  have e6 := hL₁ L ((le_max_right _ _).trans hL)
  replace hL := (le_max_left _ _).trans hL
  rw [probability_not, sub_le_sub_iff_left]
  let B : Option (Outcome Empty FE) → Prop := fun o => ∀ x, o ≠ some (.ok x)
  let place : (Fin N → Commitment) → (Fin 0 → Commitment) → Env FE Nat := fun δ κ =>
    answering env (fun _ => d0) δ (r := 0) Fin.elim0 κ
  have h1 : ∀ δ κ i b, (place δ κ).tr.append i b = i := fun _ _ _ _ => rfl
  have h2 : ∀ δ κ i (h : i < N), (place δ κ).tr.challenge i = (δ ⟨i, h⟩, i + 1) := fun δ κ i h => by
    show (if h : i < N then δ ⟨i, h⟩ else _, i + 1) = _
    rw [dif_pos h]
  have h3 : ∀ δ κ x (h : Prog.label x < 0), (place δ κ).keccak x = κ ⟨Prog.label x, h⟩ := fun δ κ x h =>
    absurd h (Nat.not_lt_zero _)
  have e1 := Prog.transfer env hp1 hp2 hL B (tr := fun δ κ => (place δ κ).tr) (K := fun δ κ => (place δ κ).keccak)
    h1 h2 h3
  have e2 := Prog.probability_stop hp1 hp2 (tr := fun δ κ => (place δ κ).tr) (K := fun δ κ => (place δ κ).keccak)
    h1 h2 h3
  let dens : FE → List FE := fun α => pi.publicMemory.map fun e => e.1 + α * e.2
  let bad : (Fin N → Commitment) → Prop := fun δ =>
    env.ofDigest (δ ⟨1, by omega⟩) ∈ dens (env.ofDigest (δ ⟨0, by omega⟩))
  have e3 : probability (Fin N → Commitment) bad ≤ pi.publicMemory.length / 2 ^ 251 := by
    refine probability_coordinate ⟨1, by omega⟩ (by positivity) fun l => ?_
    have h0 : ∀ x : Commitment, Function.update l (⟨1, by omega⟩ : Fin N) x ⟨0, by omega⟩ = l ⟨0, by omega⟩ := fun x =>
      Function.update_of_ne (by simp) _ _
    have hd0 : (dens (env.ofDigest (l ⟨0, by omega⟩))).length = pi.publicMemory.length := List.length_map _
    have hc := probability_challenge hof (dens (env.ofDigest (l ⟨0, by omega⟩)))
    rw [hd0] at hc
    simp only [bad, Function.update_self, h0]
    exact hc
  have e3' := (probability_fst (Y := Fin 0 → Commitment) bad).trans e3
  have e4 : probability ((Fin N → Commitment) × (Fin 0 → Commitment))
      (fun ω => B ((p.run (place ω.1 ω.2).tr (place ω.1 ω.2).keccak 0).map Prod.fst))
      ≤ p.stopProb + pi.publicMemory.length / 2 ^ 251 := by
    refine (probability_mono (Q := fun ω : (Fin N → Commitment) × (Fin 0 → Commitment) =>
      p.run (place ω.1 ω.2).tr (place ω.1 ω.2).keccak 0 = none ∨ bad ω.1) ?_).trans ((probability_or _ _).trans
      (add_le_add e2 e3'))
    rintro ⟨δ, κ⟩ hB
    by_contra hc
    rw [not_or] at hc
    obtain ⟨hc1, hc2⟩ := hc
    obtain ⟨⟨o, t'⟩, hrun⟩ := Option.ne_none_iff_exists'.1 hc1
    have ho := hp4 Nat (place δ κ).tr (place δ κ).keccak 0 o t' hrun
    have hch : (buildRapChallenges (place δ κ) (air (2 ^ a) pi ProofOptions.defaultTestOptions)
        ((place δ κ).tr.append (place δ κ).tr.init (List.replicate 32 0))).1
        = ⟨env.ofDigest (δ ⟨0, by omega⟩), env.ofDigest (δ ⟨1, by omega⟩), env.ofDigest (δ ⟨2, by omega⟩)⟩ := by
      unfold buildRapChallenges
      rw [show (place δ κ) = answering env (fun _ => d0) δ (r := 0) Fin.elim0 κ from rfl, answering_samples]
      have hc : ∀ i (hi : i < N), ((answering env (fun _ => d0) δ (r := 0) Fin.elim0 κ).tr.challenge i).1
          = δ ⟨i, hi⟩ := fun i hi => by
        show (if h : i < N then δ ⟨i, h⟩ else _) = _
        rw [dif_pos hi]
      show (⟨env.ofDigest ((answering env (fun _ => d0) δ (r := 0) Fin.elim0 κ).tr.challenge (0 + 0)).1,
        env.ofDigest ((answering env (fun _ => d0) δ (r := 0) Fin.elim0 κ).tr.challenge (0 + 1)).1,
        env.ofDigest ((answering env (fun _ => d0) δ (r := 0) Fin.elim0 κ).tr.challenge (0 + 2)).1⟩
          : RAPChallenges FE) = _
      rw [hc _ (by omega), hc _ (by omega), hc _ (by omega)]
    obtain ⟨cs, hcs⟩ := boundary_exists pi hsteps hmin hmax (n := 2 ^ a) (by positivity)
      ⟨env.ofDigest (δ ⟨0, by omega⟩), env.ofDigest (δ ⟨1, by omega⟩), env.ofDigest (δ ⟨2, by omega⟩)⟩
      (fun e he hc => hc2 (List.mem_map.2 ⟨e, he, hc.symm⟩))
    obtain ⟨z, hz⟩ := Rep.toPoint_exists (e := place δ κ) (air := air (2 ^ a) pi ProofOptions.defaultTestOptions) (d := d)
      (root := ⟨List.replicate 32 0, List.length_replicate⟩)
      (compositionRoot := ⟨List.replicate 32 0, List.length_replicate⟩) (bcs := cs) (by rw [hch]; exact hcs)
      (answering_point_late env δ κ hd0)
    have ho2 : (Outcome.ok z : Outcome Empty (FE × Nat)) = o >>= fun x => .ok (x, t') := hz.symm.trans ho
    cases o with
    | err e => exact e.elim
    | panic => cases ho2
    | ok x => exact hB x (by rw [hrun]; rfl)
  rw [card_commitment] at e1
  rw [show (1 - 1 / 2 ^ 1 : ℚ) = 1 / 2 by norm_num] at e6
  refine le_trans (probability_mono (Q := fun ω : (Message L → Commitment) × (WorkMessage → Commitment) =>
    B ((p.run (hashing env ω.1 ω.2).tr (hashing env ω.1 ω.2).keccak []).map Prod.fst) ∨
    ∃ seed, Grinding.generateNonce (hashing env ω.1 ω.2).keccak seed 1 = none) fun ω hω => ?_)
    ((probability_or _ _).trans ((add_le_add e1 e6).trans ?_))
  · by_contra hc
    rw [not_or] at hc
    obtain ⟨hc1, hc2⟩ := hc
    simp only [B, not_forall, not_not] at hc1
    obtain ⟨x, hx⟩ := hc1
    obtain ⟨⟨o, t'⟩, hrun, ho⟩ := Option.map_eq_some_iff.1 hx
    have ho' := hp4 Bytes (hashing env ω.1 ω.2).tr (hashing env ω.1 ω.2).keccak [] o t' hrun
    dsimp only at ho'
    rw [over_hashing, show o = .ok x from ho] at ho'
    obtain ⟨cs, hcs, hpt⟩ := Rep.toPoint_ok (e := hashing env ω.1 ω.2) (z := (x, t')) ho'
    refine hω (forgery_accepted_at (env := hashing env ω.1 ω.2) S
      (fun w z hw i => square_notMem' (by omega) (hw : env.ta.root (a + 2) = some w) three_not_square
        (show a + 2 < env.ta.adicity by rw [hta]; show _ < 192; omega) z i) rfl rfl (fun ch => ⟨_, air_polynomial _ _ _ ch⟩)
      ⟨List.replicate 32 0, List.length_replicate⟩ ⟨List.replicate 32 0, List.length_replicate⟩ (bcs := cs)
      hcs (boundary_columns hcs) hd hpt (fun seed hs => hc2 ⟨seed, hs⟩)
      (rows := List.replicate 2 (List.replicate (traceColumns (hasRcBuiltin pi)) 0)) rfl
      (fun r hr => by rw [(List.mem_replicate.mp hr).2, List.length_replicate]; rfl) 0 0 le_rfl)
  · linarith

/-- **C46** refuted for random hash functions: for every claimed run, of any length, whose public inputs have a step and
bounds for the range check, a proof assembled without a run is accepted except with small probability. The hash functions
are drawn as in `C81_random_hash`. The bound is the sum of `|public memory| / 2^251`, of `((2^(a+2) + 2^a) / 2^251)^r` for
`r` candidates for the out-of-domain point, of `2^256 (1/2)^n` for a seed for which `n` nonces do no proof of work, and of
`N (N + 1) / 2 / 2^256` for the transcript to come back to a state it has been in before the point. -/
theorem C46_forged_random_hash (hta : env.ta = starkRoots)
    (hof : ∀ d, randomnessToField 252 d = .ok (env.ofDigest d))
    (pi : PublicInputs) (hsteps : pi.numSteps ≠ 0) (hmin : pi.rangeCheckMin ≠ none) (hmax : pi.rangeCheckMax ≠ none)
    {a : Nat} (ha : 1 ≤ a) (hab : a + 2 < 64) {N : Nat} (r : Nat) {n : Nat}
    (hN : N = 3 + 2 * 8 + 2 * (if pi.memorySegments = [] then 49 else 50) + r) (hn : n < 2 ^ 64 - 1) :
    ∃ L₀, ∀ L ≥ L₀,
    1 - (pi.publicMemory.length / 2 ^ 251 + ((2 ^ (a + 2) + 2 ^ a) / 2 ^ 251) ^ r + 2 ^ 256 * (1 / 2) ^ n
        + N * (N + 1) / 2 / 2 ^ 256)
      ≤ probability ((Message L → Commitment) × (WorkMessage → Commitment)) fun ω =>
          ∃ proof, proof.traceLength = 2 ^ a ∧ proof.friLayersMerkleRoots = [] ∧ proof.deepPolyOpenings = [] ∧
            verifyCairoProof (hashing env ω.1 ω.2) proof pi ProofOptions.defaultTestOptions = .ok true := by
  obtain ⟨L₀, h⟩ := forged_random_hash hta hof pi hsteps hmin hmax ha hab r hN hn
  refine ⟨L₀, fun L hL => (h L hL).trans (probability_mono ?_)⟩
  rintro ω ⟨even, nonce, -, h⟩
  exact ⟨_, rfl, rfl, rfl, h⟩

/-- **C61** refuted for random hash functions: the same for a file and the command `verify`. -/
theorem C61_forged_file_random_hash (hta : env.ta = starkRoots)
    (hof : ∀ d, randomnessToField 252 d = .ok (env.ofDigest d))
    (pi : PublicInputs) (hwf : pi.WF) (hsize : pi.publicMemory.length < 2 ^ 57)
    (hsteps : pi.numSteps ≠ 0) (hmin : pi.rangeCheckMin ≠ none) (hmax : pi.rangeCheckMax ≠ none)
    {a : Nat} (ha : 1 ≤ a) (hab : a + 2 < 64) {N : Nat} (r : Nat) {n : Nat}
    (hN : N = 3 + 2 * 8 + 2 * (if pi.memorySegments = [] then 49 else 50) + r) (hn : n < 2 ^ 64 - 1) :
    ∃ L₀, ∀ L ≥ L₀,
    1 - (pi.publicMemory.length / 2 ^ 251 + ((2 ^ (a + 2) + 2 ^ a) / 2 ^ 251) ^ r + 2 ^ 256 * (1 / 2) ^ n
        + N * (N + 1) / 2 / 2 ^ 256)
      ≤ probability ((Message L → Commitment) × (WorkMessage → Commitment)) fun ω =>
          ∃ file proof, readProofFile file = .ok (proof, pi) ∧
            ∀ (vm : Vm) (w : World) (name path : String) (args : List String), w.read path = some file →
              Cli.main (hashing env ω.1 ω.2) vm w (name :: "verify" :: path :: args) = .ok (.verdict true) := by
  obtain ⟨L₀, h⟩ := forged_random_hash hta hof pi hsteps hmin hmax ha hab r hN hn
  refine ⟨L₀, fun L hL => (h L hL).trans (probability_mono ?_)⟩
  rintro ω ⟨even, nonce, hnonce, h⟩
  obtain ⟨file, proof, hread, -, -, -, hv⟩ := forged_file_of pi hwf hsize hab hnonce h
  exact ⟨file, proof, hread, fun vm w name path rest hr => C61_accepted_files_partial.2 ⟨_, _, _, hr, hread, hv⟩⟩

/-- **C76** refuted for random hash functions: for every number of rows, a file of at most 4100 bytes for which the
verifier lists four times that number of elements is accepted, except with small probability. -/
theorem C76_small_file_random_hash (hta : env.ta = starkRoots)
    (hof : ∀ d, randomnessToField 252 d = .ok (env.ofDigest d))
    {a : Nat} (ha : 1 ≤ a) (hab : a + 2 < 64) {N : Nat} (r : Nat) {n : Nat} (hN : N = 117 + r) (hn : n < 2 ^ 64 - 1) :
    ∃ L₀, ∀ L ≥ L₀,
    1 - (((2 ^ (a + 2) + 2 ^ a) / 2 ^ 251) ^ r + 2 ^ 256 * (1 / 2) ^ n + N * (N + 1) / 2 / 2 ^ 256)
      ≤ probability ((Message L → Commitment) × (WorkMessage → Commitment)) fun ω =>
          ∃ file proof pi d, file.length ≤ 4100 ∧ readProofFile file = .ok (proof, pi) ∧
            (∀ (vm : Vm) (w : World) (name path : String) (args : List String), w.read path = some file →
              Cli.main (hashing env ω.1 ω.2) vm w (name :: "verify" :: path :: args) = .ok (.verdict true)) ∧
            Domain.new env.ta (air proof.traceLength pi ProofOptions.defaultTestOptions) = .ok d ∧
            d.ldeRootsOfUnityCoset.length = 2 ^ (a + 2) := by
  obtain ⟨L₀, h⟩ := forged_random_hash hta hof falseStatement (by decide) (by decide) (by decide) ha hab (N := N) r hN hn
  refine ⟨L₀, fun L hL => ?_⟩
  have h := h L hL
  rw [show falseStatement.publicMemory.length = 0 from rfl, Nat.cast_zero, zero_div, zero_add] at h
  refine h.trans (probability_mono ?_)
  rintro ω ⟨even, nonce, hnonce, h⟩
  obtain ⟨file, proof, hread, hlen, hq, hfile, hv⟩ := forged_file_of falseStatement
    ⟨List.nodup_nil, by simp [falseStatement], List.nodup_nil, by decide⟩ (by decide) hab hnonce h
  have S := cairo_setting ha falseStatement
  obtain ⟨d, hd, -, hl⟩ := C76_domain_listed (new := CairoAir.new) (pi := falseStatement) (by rw [hlen]; rfl) S
    (by rw [hq]; exact le_rfl) hv
  refine ⟨file, proof, falseStatement, d, ?_, hread,
    fun vm w name path rest hr => C61_accepted_files_partial.2 ⟨_, _, _, hr, hread, hv⟩, by rw [hlen]; exact hd, ?_⟩
  · have h1 := publicInputs_length falseStatement
    rw [hfile, show traceColumns (hasRcBuiltin falseStatement) = 52 by decide]
    have h2 : falseStatement.memorySegments.length = 0 := rfl
    have h3 : falseStatement.publicMemory.length = 0 := rfl
    omega
  · rw [hl, S.length, S.blowup, pow_add]

/-- **C74** for random hash functions: for every claim of zero steps there is a proof that the release build accepts and
on which the debug build panics, with the probability of C46. -/
theorem C74_zero_steps_random_hash (hta : env.ta = starkRoots)
    (hof : ∀ d, randomnessToField 252 d = .ok (env.ofDigest d))
    (pi : PublicInputs) (hzero : pi.numSteps = 0) (hmin : pi.rangeCheckMin ≠ none) (hmax : pi.rangeCheckMax ≠ none)
    {a : Nat} (ha : 1 ≤ a) (hab : a + 2 < 64) {N : Nat} (r : Nat) {n : Nat}
    (hN : N = 3 + 2 * 8 + 2 * (if pi.memorySegments = [] then 49 else 50) + r) (hn : n < 2 ^ 64 - 1) :
    ∃ L₀, ∀ L ≥ L₀,
    1 - (pi.publicMemory.length / 2 ^ 251 + ((2 ^ (a + 2) + 2 ^ a) / 2 ^ 251) ^ r + 2 ^ 256 * (1 / 2) ^ n
        + N * (N + 1) / 2 / 2 ^ 256)
      ≤ probability ((Message L → Commitment) × (WorkMessage → Commitment)) fun ω =>
          ∃ proof,
            verifyCairoProofRelease (hashing env ω.1 ω.2) proof pi ProofOptions.defaultTestOptions = .ok true ∧
            verifyCairoProofDebug (hashing env ω.1 ω.2) proof pi ProofOptions.defaultTestOptions = .panic := by
  obtain ⟨L₀, h⟩ := forged_random_hash hta hof { pi with numSteps := 2 ^ a } (by simp) hmin hmax ha hab r hN hn
  refine ⟨L₀, fun L hL => (h L hL).trans (probability_mono ?_)⟩
  rintro ω ⟨even, nonce, -, h⟩
  refine ⟨_, zero_steps_of hzero ha hab rfl rfl (fun d hd => ?_) h⟩
  rw [(List.mem_replicate.mp hd).2]
  simp

/-- The false statement of C46, which no trace satisfies, claimed for a million rows: for random hash functions the
command `verify` accepts a file with it with probability at least `1 - 1/2^220`. -/
example : ∃ L₀, ∀ L ≥ L₀,
    1 - 1 / 2 ^ 220 ≤ probability ((Message L → Commitment) × (WorkMessage → Commitment)) fun ω =>
      ∃ file proof, readProofFile file = .ok (proof, falseStatement) ∧
        ∀ (vm : Vm) (w : World) (name path : String) (args : List String), w.read path = some file →
          Cli.main (hashing envDrawn ω.1 ω.2) vm w (name :: "verify" :: path :: args) = .ok (.verdict true) := by
  obtain ⟨L₀, h⟩ := C61_forged_file_random_hash (env := envDrawn) rfl envDrawn_challenges falseStatement
    ⟨List.nodup_nil, by simp [falseStatement], List.nodup_nil, by decide⟩ (by decide) (by decide) (by decide)
    (by decide) (a := 20) (by norm_num) (by norm_num) (N := 118) 1 (n := 600) rfl (by norm_num)
  refine ⟨L₀, fun L hL => le_trans ?_ (h L hL)⟩
  rw [show falseStatement.publicMemory.length = 0 from rfl, show (600 : Nat) = 200 * 3 from rfl, pow_mul]
  norm_num

end Verif.Props
