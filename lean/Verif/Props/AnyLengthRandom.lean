import Verif.Props.AnyLength
import Verif.Props.RandomForgery

/-!
# C97 for random hash functions
-/

namespace Verif.Props
open Runner Cli Verif.Spec Random Proximity CairoAir ExecTrace Transcript TraceTable
variable {T : Type} {env : Env FE T}

/-- **C97** refuted for random hash functions: for every claimed run whose public inputs have a step and bounds for the
range check, and every `m` that has no common divisor with the order of the multiplicative group, a proof that claims
`m * 2^a` rows is accepted except with small probability. The hash functions are drawn as in `C46_forged_random_hash`,
and the bound is the sum of the same four terms. -/
theorem C97_random_hash (hta : env.ta = starkRoots) (hof : ∀ d, randomnessToField 252 d = .ok (env.ofDigest d))
    (pi : PublicInputs) (hsteps : pi.numSteps ≠ 0) (hmin : pi.rangeCheckMin ≠ none) (hmax : pi.rangeCheckMax ≠ none)
    {a m : Nat} (ha : 1 ≤ a) (hcop : Nat.Coprime m (P - 1)) (hsize : m * 2 ^ a * 4 < 2 ^ 64) {N : Nat} (r : Nat) {n : Nat}
    (hN : N = 3 + 2 * 8 + 2 * (if pi.memorySegments = [] then 49 else 50) + r) (hn : n < 2 ^ 64 - 1) :
    ∃ L₀, ∀ L ≥ L₀,
    1 - (pi.publicMemory.length / 2 ^ 251 + (5 * (m * 2 ^ a) / 2 ^ 251) ^ r + 2 ^ 256 * (1 / 2) ^ n
        + N * (N + 1) / 2 / 2 ^ 256)
      ≤ probability ((Message L → Commitment) × (WorkMessage → Commitment)) fun ω =>
          ∃ proof, proof.traceLength = m * 2 ^ a ∧
            verifyCairoProof (hashing env ω.1 ω.2) proof pi ProofOptions.defaultTestOptions = .ok true := by
  have := Prog.commitment_nonempty
  have hodd := odd_of_coprime hcop
  have ha64 := exponent_lt hodd hsize
  have hnt : 3 + 2 * 8 + 2 * (if pi.memorySegments = [] then 49 else 50)
      = (air (m * 2 ^ a) pi ProofOptions.defaultTestOptions).numRapChallenges + 2 * 8
      + 2 * (air (m * 2 ^ a) pi ProofOptions.defaultTestOptions).context.numTransitionConstraints := draws_eq rfl
  obtain ⟨d, ds, g, w, hd, D⟩ := domain_mul (ta := env.ta) (air := air (m * 2 ^ a) pi ProofOptions.defaultTestOptions)
    (b := 2) ha hodd rfl rfl (by rw [pow_add, ← mul_assoc]; exact hsize) (by rw [hta]; show _ ≤ 192; omega)
  have hd1 : d.ldeRootsOfUnityCoset.length = 4 * (m * 2 ^ a) := by
    rw [D.lde, List.length_map, List.length_range, pow_add]; ring
  have hd2 : d.traceRootsOfUnity.length = m * 2 ^ a := by rw [D.traceRoots, List.length_map, List.length_range]
  have hlen : (d.ldeRootsOfUnityCoset ++ d.traceRootsOfUnity).length = 5 * (m * 2 ^ a) := by
    rw [List.length_append, hd1, hd2]; ring
  have hpoint : probability Commitment (fun x => env.ofDigest x ∈ d.ldeRootsOfUnityCoset ++ d.traceRootsOfUnity)
      ≤ 5 * (m * 2 ^ a) / 2 ^ 251 := by
    refine (probability_challenge hof _).trans ?_
    rw [hlen]
    push_cast
    rfl
  obtain ⟨d0, hd0⟩ := exists_digest hof (l := d.ldeRootsOfUnityCoset ++ d.traceRootsOfUnity) (by
    rw [hlen]
    calc ((5 * (m * 2 ^ a) : Nat) : ℚ) ≤ ((2 ^ 65 : Nat) : ℚ) := by
          have : 5 * (m * 2 ^ a) ≤ 2 ^ 65 := by omega
          exact_mod_cast this
      _ < 2 ^ 251 := by norm_num)
  obtain ⟨p, hp1, hp2, hp3, hp4⟩ := Rep.toPoint_rep env (air (m * 2 ^ a) pi ProofOptions.defaultTestOptions) d
    ⟨List.replicate 32 0, List.length_replicate⟩ ⟨List.replicate 32 0, List.length_replicate⟩ boundary_count r
  rw [← hnt, ← hN] at hp1
  have e5 := hp3.trans (pow_le_pow_left₀ (probability_nonneg _) hpoint r)
  clear hp3
  obtain ⟨L₁, hL₁⟩ := probability_no_nonces env (g := 1) (by norm_num) hn
  refine ⟨max (p.width 0) L₁, fun L hL => ?_⟩
  have e6 := hL₁ L ((le_max_right _ _).trans hL)
  replace hL := (le_max_left _ _).trans hL
  rw [probability_not, sub_le_sub_iff_left]
  let B : Option (Outcome Empty FE) → Prop := fun o => ∀ x, o ≠ some (.ok x)
  let place : (Fin N → Commitment) → (Fin 0 → Commitment) → Env FE Nat := fun δ κ =>
    answering env (fun _ => d0) δ (r := 0) Fin.elim0 κ
  have h1 : ∀ δ κ i b, (place δ κ).tr.append i b = i := fun _ _ _ _ => rfl
  have h2 : ∀ δ κ i (h : i < N), (place δ κ).tr.challenge i = (δ ⟨i, h⟩, i + 1) := fun δ κ i h => by
    show (if h : i < N then δ ⟨i, h⟩ else _, i + 1) = _
    rw [dif_pos h]
  have h3 : ∀ δ κ x (h : Prog.label x < 0), (place δ κ).keccak x = κ ⟨Prog.label x, h⟩ := fun δ κ x h =>
    absurd h (Nat.not_lt_zero _)
  have e1 := Prog.transfer env hp1 hp2 hL B (tr := fun δ κ => (place δ κ).tr) (K := fun δ κ => (place δ κ).keccak)
    h1 h2 h3
  have e2 := Prog.probability_stop hp1 hp2 (tr := fun δ κ => (place δ κ).tr) (K := fun δ κ => (place δ κ).keccak)
    h1 h2 h3
  let dens : FE → List FE := fun α => pi.publicMemory.map fun e => e.1 + α * e.2
  let bad : (Fin N → Commitment) → Prop := fun δ =>
    env.ofDigest (δ ⟨1, by omega⟩) ∈ dens (env.ofDigest (δ ⟨0, by omega⟩))
  have e3 : probability (Fin N → Commitment) bad ≤ pi.publicMemory.length / 2 ^ 251 := by
    refine probability_coordinate ⟨1, by omega⟩ (by positivity) fun l => ?_
    have h0 : ∀ x : Commitment, Function.update l (⟨1, by omega⟩ : Fin N) x ⟨0, by omega⟩ = l ⟨0, by omega⟩ := fun x =>
      Function.update_of_ne (by simp) _ _
    have hd0 : (dens (env.ofDigest (l ⟨0, by omega⟩))).length = pi.publicMemory.length := List.length_map _
    have hc := probability_challenge hof (dens (env.ofDigest (l ⟨0, by omega⟩)))
    rw [hd0] at hc
    simp only [bad, Function.update_self, h0]
    exact hc
  have e3' := (probability_fst (Y := Fin 0 → Commitment) bad).trans e3
  have e4 : probability ((Fin N → Commitment) × (Fin 0 → Commitment))
      (fun ω => B ((p.run (place ω.1 ω.2).tr (place ω.1 ω.2).keccak 0).map Prod.fst))
      ≤ p.stopProb + pi.publicMemory.length / 2 ^ 251 := by
    refine (probability_mono (Q := fun ω : (Fin N → Commitment) × (Fin 0 → Commitment) =>
      p.run (place ω.1 ω.2).tr (place ω.1 ω.2).keccak 0 = none ∨ bad ω.1) ?_).trans ((probability_or _ _).trans
      (add_le_add e2 e3'))
    rintro ⟨δ, κ⟩ hB
    by_contra hc
    rw [not_or] at hc
    obtain ⟨hc1, hc2⟩ := hc
    obtain ⟨⟨o, t'⟩, hrun⟩ := Option.ne_none_iff_exists'.1 hc1
    have ho := hp4 Nat (place δ κ).tr (place δ κ).keccak 0 o t' hrun
    have hch : (buildRapChallenges (place δ κ) (air (m * 2 ^ a) pi ProofOptions.defaultTestOptions)
        ((place δ κ).tr.append (place δ κ).tr.init (List.replicate 32 0))).1
        = ⟨env.ofDigest (δ ⟨0, by omega⟩), env.ofDigest (δ ⟨1, by omega⟩), env.ofDigest (δ ⟨2, by omega⟩)⟩ := by
      unfold buildRapChallenges
      rw [show (place δ κ) = answering env (fun _ => d0) δ (r := 0) Fin.elim0 κ from rfl, answering_samples]
      have hc : ∀ i (hi : i < N), ((answering env (fun _ => d0) δ (r := 0) Fin.elim0 κ).tr.challenge i).1
          = δ ⟨i, hi⟩ := fun i hi => by
        show (if h : i < N then δ ⟨i, h⟩ else _) = _
        rw [dif_pos hi]
      show (⟨env.ofDigest ((answering env (fun _ => d0) δ (r := 0) Fin.elim0 κ).tr.challenge (0 + 0)).1,
        env.ofDigest ((answering env (fun _ => d0) δ (r := 0) Fin.elim0 κ).tr.challenge (0 + 1)).1,
        env.ofDigest ((answering env (fun _ => d0) δ (r := 0) Fin.elim0 κ).tr.challenge (0 + 2)).1⟩
          : RAPChallenges FE) = _
      rw [hc _ (by omega), hc _ (by omega), hc _ (by omega)]
    obtain ⟨cs, hcs⟩ := boundary_exists pi hsteps hmin hmax (n := m * 2 ^ a)
      (by have := two_le_rows ha hodd; omega)
      ⟨env.ofDigest (δ ⟨0, by omega⟩), env.ofDigest (δ ⟨1, by omega⟩), env.ofDigest (δ ⟨2, by omega⟩)⟩
      (fun e he hc => hc2 (List.mem_map.2 ⟨e, he, hc.symm⟩))
    obtain ⟨z, hz⟩ := Rep.toPoint_exists (e := place δ κ) (air := air (m * 2 ^ a) pi ProofOptions.defaultTestOptions) (d := d)
      (root := ⟨List.replicate 32 0, List.length_replicate⟩)
      (compositionRoot := ⟨List.replicate 32 0, List.length_replicate⟩) (bcs := cs) (by rw [hch]; exact hcs)
      (answering_point_late env δ κ hd0)
    have ho2 : (Outcome.ok z : Outcome Empty (FE × Nat)) = o >>= fun x => .ok (x, t') := hz.symm.trans ho
    cases o with
    | err e => exact e.elim
    | panic => cases ho2
    | ok x => exact hB x (by rw [hrun]; rfl)
  rw [card_commitment] at e1
  rw [show (1 - 1 / 2 ^ 1 : ℚ) = 1 / 2 by norm_num] at e6
  refine le_trans (probability_mono (Q := fun ω : (Message L → Commitment) × (WorkMessage → Commitment) =>
    B ((p.run (hashing env ω.1 ω.2).tr (hashing env ω.1 ω.2).keccak []).map Prod.fst) ∨
    ∃ seed, Grinding.generateNonce (hashing env ω.1 ω.2).keccak seed 1 = none) fun ω hω => ?_)
    ((probability_or _ _).trans ((add_le_add e1 e6).trans ?_))
  · by_contra hc
    rw [not_or] at hc
    obtain ⟨hc1, hc2⟩ := hc
    simp only [B, not_forall, not_not] at hc1
    obtain ⟨x, hx⟩ := hc1
    obtain ⟨⟨o, t'⟩, hrun, ho⟩ := Option.map_eq_some_iff.1 hx
    have ho' := hp4 Bytes (hashing env ω.1 ω.2).tr (hashing env ω.1 ω.2).keccak [] o t' hrun
    dsimp only at ho'
    rw [over_hashing, show o = .ok x from ho] at ho'
    obtain ⟨cs, hcs, hpt⟩ := Rep.toPoint_ok (e := hashing env ω.1 ω.2) (z := (x, t')) ho'
    obtain ⟨even, nonce, -, hv⟩ := forgery_accepted_long_at (env := hashing env ω.1 ω.2) (new := CairoAir.new)
      (pi := pi) (air := air (m * 2 ^ a) pi ProofOptions.defaultTestOptions) (b := 2) ha hodd rfl rfl
      (by show ((3 : Nat) : FE) ≠ 0; exact_mod_cast three_ne_zero_FE) (air_fits (two_le_rows ha hodd) _ _)
      (by rw [pow_add, ← mul_assoc]; exact hsize)
      (show a + 2 ≤ env.ta.adicity by rw [hta]; show _ ≤ 192; omega) (root_eq_one hcop)
      (fun w z hw i => square_notMem' (by omega) (hw : env.ta.root (a + 2) = some w) three_not_square
        (show a + 2 < env.ta.adicity by rw [hta]; show _ < 192; omega) z i) rfl rfl (fun ch => ⟨_, air_polynomial _ _ _ ch⟩)
      ⟨List.replicate 32 0, List.length_replicate⟩ ⟨List.replicate 32 0, List.length_replicate⟩ (bcs := cs)
      hcs (boundary_columns hcs) (fun d' hd' => by
        obtain rfl := Outcome.ok.inj (hd.symm.trans hd')
        exact hpt) (fun seed hs => hc2 ⟨seed, hs⟩)
      (rows := List.replicate 2 (List.replicate (traceColumns (hasRcBuiltin pi)) 0)) rfl
      (fun r hr => by rw [(List.mem_replicate.mp hr).2, List.length_replicate]; rfl) 0 0 (queries := 3) le_rfl
    exact hω ⟨_, rfl, hv⟩
  · linarith

/-- The false statement of C46, which no trace satisfies, claimed for three million rows: for random hash functions a
proof that claims this number of rows is accepted with probability at least `1 - 1/2^220`. -/
example : ∃ L₀, ∀ L ≥ L₀,
    1 - 1 / 2 ^ 220 ≤ probability ((Message L → Commitment) × (WorkMessage → Commitment)) fun ω =>
      ∃ proof, proof.traceLength = 3 * 2 ^ 20 ∧
        verifyCairoProof (hashing envDrawn ω.1 ω.2) proof falseStatement ProofOptions.defaultTestOptions = .ok true := by
  obtain ⟨L₀, h⟩ := C97_random_hash (env := envDrawn) rfl envDrawn_challenges falseStatement (by decide) (by decide)
    (by decide) (a := 20) (m := 3) (by norm_num) (by rw [P_eq]; norm_num) (by norm_num) (N := 118) 1 (n := 600) rfl
    (by norm_num)
  refine ⟨L₀, fun L hL => le_trans ?_ (h L hL)⟩
  rw [show falseStatement.publicMemory.length = 0 from rfl, show (600 : Nat) = 200 * 3 from rfl, pow_mul]
  norm_num

end Verif.Props
