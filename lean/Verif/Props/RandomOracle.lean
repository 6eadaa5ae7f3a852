import Verif.Props.RandomReject
import Verif.Lemmas.ProveVerdict

/-!
# C81 for random hash functions

The digests of a run are those of hash functions drawn at random, instead of draws of their own.
-/

namespace Verif.Props
open Runner Cli Verif.Spec Random Proximity CairoAir ExecTrace Transcript TraceTable
variable {T : Type} {env : Env FE T}

section answering
variable {F T : Type} [Field F] [DecidableEq F] (env : Env F T) {N m : Nat} (δ : Fin N → Commitment)
  (κ : Fin m → Commitment)

/-- A point is found after all draws. -/
theorem answering_point_late {d0 : Commitment} {lde trace : List F} (h : env.ofDigest d0 ∉ lde ++ trace) (t : Nat) :
    (answering env (fun _ => d0) δ Fin.elim0 κ).tr.sampleZOod (answering env (fun _ => d0) δ Fin.elim0 κ).ofDigest lde
      trace t ≠ none := by
  classical
  have he : ∃ k, ((answering env (fun _ => d0) δ Fin.elim0 κ).tr.toField (answering env (fun _ => d0) δ Fin.elim0 κ).ofDigest
        ((answering env (fun _ => d0) δ Fin.elim0 κ).tr.after k t)).1 ∉ lde ∧
      ((answering env (fun _ => d0) δ Fin.elim0 κ).tr.toField (answering env (fun _ => d0) δ Fin.elim0 κ).ofDigest
        ((answering env (fun _ => d0) δ Fin.elim0 κ).tr.after k t)).1 ∉ trace := by
    refine ⟨N, ?_⟩
    rw [answering_after]
    have h1 : ((answering env (fun _ => d0) δ Fin.elim0 κ).tr.toField
        (answering env (fun _ => d0) δ Fin.elim0 κ).ofDigest (t + N)).1 = env.ofDigest d0 := by
      show env.ofDigest (if h : t + N < N then δ ⟨t + N, h⟩ else
        if h : t + N - N < 0 then Fin.elim0 ⟨t + N - N, h⟩ else d0) = _
      rw [dif_neg (by omega), dif_neg (by omega)]
    rw [h1]
    simpa [not_or] using h
  unfold sampleZOod
  rw [dif_pos he]
  exact fun hc => by cases hc

omit [DecidableEq F] in
/-- A nonce is found after all draws. -/
theorem answering_nonce_late (rest : Nat → Commitment) (hm : m < 2 ^ 64 - 1) {g : Nat} (hg : g ≤ 64)
    (hk : ∀ b, beNat ((env.keccak b).val.take 8) = 0) (challenge : Commitment) :
    Grinding.generateNonce (answering env rest δ (r := 0) Fin.elim0 κ).keccak challenge g ≠ none := by
  intro hn
  refine (C52_search_fails_iff _ _ _).1 hn m hm ⟨hg, ?_⟩
  have h1 : leNat ((challenge.val ++ leBytes 8 m).drop 32) = m := by
    have hi : m < 256 ^ 8 := calc
      m < 2 ^ 64 := by omega
      _ = _ := by norm_num
    rw [List.drop_left' challenge.property]
    exact leNat_leBytes 8 m hi
  have h2 : (answering env rest δ (r := 0) Fin.elim0 κ).keccak (challenge.val ++ leBytes 8 m)
      = env.keccak (challenge.val ++ leBytes 8 m) := by
    show (if h : leNat ((challenge.val ++ leBytes 8 m).drop 32) < m then _ else _) = _
    rw [dif_neg (by rw [h1]; omega)]
  rw [h2, hk]
  exact dvd_zero _

end answering

theorem exists_digest (hof : ∀ d, randomnessToField 252 d = .ok (env.ofDigest d)) {l : List FE}
    (hl : (l.length : ℚ) < 2 ^ 251) : ∃ d, env.ofDigest d ∉ l := by
  by_contra hc
  push Not at hc
  have := Prog.commitment_nonempty
  have h1 := probability_challenge hof l
  rw [probability_not] at h1
  have h2 : probability Commitment (fun d => ¬ env.ofDigest d ∈ l) = 0 := by
    have : (fun d : Commitment => ¬ env.ofDigest d ∈ l) = fun _ => False := by
      funext d
      simp [hc d]
    rw [this]
    exact probability_false
  rw [h2, sub_zero, le_div_iff₀ (by positivity), one_mul] at h1
  linarith

theorem boundary_count {pi : PublicInputs} {n : Nat} {options : ProofOptions} (ch : RAPChallenges FE)
    (cs : List (BoundaryConstraint FE)) (h : (air n pi options).boundaryConstraints ch = .ok cs) : cs.length = 8 := by
  change boundaryConstraints _ _ _ = _ at h
  unfold boundaryConstraints at h
  split at h
  · cases h
  · simp only [Outcome.bind_eq_ok, Outcome.pure_eq, Outcome.ok.injEq] at h
    obtain ⟨_, -, _, -, _, -, rfl⟩ := h
    rfl

theorem card_commitment : (Fintype.card Commitment : ℚ) = 2 ^ 256 := by
  have h1 : Fintype.card Commitment = Fintype.card UInt8 ^ 32 := card_vector 32
  rw [h1]
  have h2 : Fintype.card UInt8 = 256 := (Fintype.ofEquiv_card _).trans (Fintype.card_fin 256)
  rw [h2]
  norm_num

/-- The environment with digests of zeros for all further nonces. -/
def zeroWork (env : Env FE T) : Env FE T := { env with keccak := fun _ => ⟨List.replicate 32 0, List.length_replicate⟩ }

/-- The prover succeeds on drawn digests when the challenges are not denominators. -/
theorem honest_prover_draws (hta : env.ta = starkRoots) {mem : CairoMemory} {m : FE → FE}
    {states : List RegistersState} (run : HonestRun mem m states) {size : Nat} {segs : MemorySegmentMap}
    {pi pi' : PublicInputs} (hpi : fromRegsAndMem states mem size segs = .ok pi) (hsize : size < 2 ^ 64)
    (hzero : mem.get? 0 = none) (hpc : ∃ t ∈ states, t.pc ≤ size)
    (hsegs : segs = [] ∨ ∃ r, segs.get? .rangeCheck = some r) (hb : BuiltinValues mem segs)
    (hout : OutputAfterProgram size segs) (hcov : OutputCovered m states size segs)
    {main : List (List FE)} (hmain : buildMainTrace states mem pi = .ok (main, pi'))
    {options : ProofOptions} {a b : Nat} (hlen : main.length = 2 ^ a) (hab : a + b < 64) (hb1 : 1 ≤ b)
    (hbl : options.blowupFactor.toNat = 2 ^ b) (hsq : ¬ IsSquare (options.cosetOffset : FE))
    (hg : options.grindingFactor.toNat ≤ 64) {d : Domain FE} (hd : Domain.new env.ta (air (2 ^ a) pi' options) = .ok d)
    {d0 : Commitment} (hd0 : env.ofDigest d0 ∉ d.ldeRootsOfUnityCoset ++ d.traceRootsOfUnity) {N n : Nat} (hN : 3 ≤ N)
    (hn : n < 2 ^ 64 - 1) (δ : Fin N → Commitment) (κ : Fin n → Commitment)
    (g1 : env.ofDigest (δ ⟨1, by omega⟩) ∉ (accesses main ++ pi.publicMemory).map
      (fun e => e.1 + env.ofDigest (δ ⟨0, by omega⟩) * e.2))
    (g2 : env.ofDigest (δ ⟨2, by omega⟩) ∉ getCols main [OFF_DST, OFF_OP0, OFF_OP1]) :
    ∃ proof, generateCairoProof (answering (zeroWork env) (fun _ => d0) δ (r := 0) Fin.elim0 κ)
      ⟨main.flatten, (main.headD []).length⟩ pi' options = .ok proof := by
  have hta' : (answering (zeroWork env) (fun _ => d0) δ (r := 0) Fin.elim0 κ).ta = starkRoots := hta
  obtain ⟨d', hd', -, -, root0, h⟩ := cairo_prover_at hta' run hpi hsize hzero hpc hsegs hb hout hcov hmain hlen hab
    hb1 hbl hsq
  obtain rfl : d = d' := Outcome.ok.inj (hd.symm.trans hd')
  have hch : (buildRapChallenges (answering (zeroWork env) (fun _ => d0) δ (r := 0) Fin.elim0 κ) (air (2 ^ a) pi' options)
      ((answering (zeroWork env) (fun _ => d0) δ (r := 0) Fin.elim0 κ).tr.append
        (answering (zeroWork env) (fun _ => d0) δ (r := 0) Fin.elim0 κ).tr.init root0.val)).1
      = ⟨env.ofDigest (δ ⟨0, by omega⟩), env.ofDigest (δ ⟨1, by omega⟩), env.ofDigest (δ ⟨2, by omega⟩)⟩ := by
    unfold buildRapChallenges
    rw [answering_samples]
    have h0 : (answering (zeroWork env) (fun _ => d0) δ (r := 0) Fin.elim0 κ).tr.append
      (answering (zeroWork env) (fun _ => d0) δ (r := 0) Fin.elim0 κ).tr.init root0.val = 0 := rfl
    have hc : ∀ i (hi : i < N), ((answering (zeroWork env) (fun _ => d0) δ (r := 0) Fin.elim0 κ).tr.challenge i).1
        = δ ⟨i, hi⟩ := fun i hi => by
      show (if h : i < N then δ ⟨i, h⟩ else _) = _
      rw [dif_pos hi]
    rw [h0]
    show (⟨env.ofDigest ((answering (zeroWork env) (fun _ => d0) δ (r := 0) Fin.elim0 κ).tr.challenge (0 + 0)).1,
      env.ofDigest ((answering (zeroWork env) (fun _ => d0) δ (r := 0) Fin.elim0 κ).tr.challenge (0 + 1)).1,
      env.ofDigest ((answering (zeroWork env) (fun _ => d0) δ (r := 0) Fin.elim0 κ).tr.challenge (0 + 2)).1⟩
        : RAPChallenges FE) = _
    rw [hc _ (by omega), hc _ (by omega), hc _ (by omega)]
  obtain ⟨roots, rootH, h⟩ := h _ hch.symm
    (fun e he hc => g1 (List.mem_map.2 ⟨e, he, hc.symm⟩))
    (fun x hx hc => g2 (by rw [show env.ofDigest (δ ⟨2, _⟩) = x from hc]; exact hx))
  obtain ⟨challenge, h⟩ := h (answering_point_late (zeroWork env) δ κ hd0 _)
  exact h (answering_nonce_late (zeroWork env) δ κ _ hn hg
    (fun b => by show beNat ((List.replicate 32 0).take 8) = 0; rfl) challenge)

theorem over_answering (d0 : Commitment) {N n : Nat} (δ : Fin N → Commitment) (κ : Fin n → Commitment) :
    env.over (answering (zeroWork env) (fun _ => d0) δ (r := 0) Fin.elim0 κ).tr
      (answering (zeroWork env) (fun _ => d0) δ (r := 0) Fin.elim0 κ).keccak
      = answering (zeroWork env) (fun _ => d0) δ (r := 0) Fin.elim0 κ := rfl

theorem over_hashing {L : Nat} (H : Message L → Commitment) (K : WorkMessage → Commitment) :
    env.over (hashing env H K).tr (hashing env H K).keccak = hashing env H K := rfl

/-- The prover for Cairo is a program that talks to a transcript. -/
theorem cairo_prog (hta : env.ta = starkRoots) (hof : ∀ d, randomnessToField 252 d = .ok (env.ofDigest d))
    {pi : PublicInputs} {options : ProofOptions} {a b : Nat} (ha : 1 ≤ a) (hab : a + b < 64)
    (hbl : options.blowupFactor.toNat = 2 ^ b) (hg : options.grindingFactor.toNat ≤ 64) {trace : TraceTable FE}
    (htab : trace.nRows = 2 ^ a) {s columns N : Nat} (r : Nat) {n : Nat}
    (hs : s = 3 + 2 * 8 + 2 * (if pi.memorySegments = [] then 49 else 50))
    (hcolumns : columns = if pi.memorySegments = [] then 52 else 61)
    (hN : N = s + r + 2 + 2 * columns + a + 1 + options.friNumberOfQueries) (hn : n < 2 ^ 64) :
    ∃ d g w, Domain.new env.ta (air (2 ^ a) pi options) = .ok d ∧
      IsDomain env.ta d a b ((air (2 ^ a) pi options).context.proofOptions.cosetOffset : FE) g w ∧
      (∃ d0, env.ofDigest d0 ∉ d.ldeRootsOfUnityCoset ++ d.traceRootsOfUnity) ∧
    ∃ p : Prog (Outcome Empty (StarkProof FE × Challenges FE (RAPChallenges FE))), p.Draws N ∧ p.Hashes n 0 ∧
      p.stopProb ≤ ((2 ^ (a + b) + 2 ^ a) / 2 ^ 251) ^ r + (1 - 1 / 2 ^ options.grindingFactor.toNat) ^ n ∧
      ∀ (T : Type) (tr : Transcript T) (K : Bytes → Commitment) o t', p.run tr K tr.init = some (o, t') →
        Rep.proveFrom (env.over tr K) (air (2 ^ a) pi options) d trace tr.init = (o >>= fun x => .ok (x, t')) ∧
        generateCairoProof (env.over tr K) trace pi options = o >>= fun x => .ok x.1 := by
  have hnt : s = (air (2 ^ a) pi options).numRapChallenges + 2 * 8
      + 2 * (air (2 ^ a) pi options).context.numTransitionConstraints := draws_eq hs
  have hcol : columns = (air (2 ^ a) pi options).context.traceColumns := by
    show columns = traceColumns (hasRcBuiltin pi)
    rw [hcolumns]
    unfold hasRcBuiltin
    cases pi.memorySegments <;> rfl
  obtain ⟨d, hd⟩ := domain_exists (ta := env.ta) (air := air (2 ^ a) pi options) ha rfl hbl hab
    (by rw [hta]; show _ ≤ 192; omega)
  obtain ⟨g, w, D⟩ := domain_new (air := air (2 ^ a) pi options) ha rfl hbl hd
  have hd1 := D.lde_length
  have hd2 : d.traceRootsOfUnity.length = 2 ^ a := by rw [D.traceRoots, List.length_map, List.length_range]
  have hpoint : probability Commitment (fun x => env.ofDigest x ∈ d.ldeRootsOfUnityCoset ++ d.traceRootsOfUnity)
      ≤ (2 ^ (a + b) + 2 ^ a) / 2 ^ 251 := by
    refine (probability_challenge hof _).trans ?_
    rw [List.length_append, hd1, hd2]
    push_cast
    rfl
  refine ⟨d, g, w, hd, D, exists_digest hof (l := d.ldeRootsOfUnityCoset ++ d.traceRootsOfUnity) ?_, ?_⟩
  · rw [List.length_append, hd1, hd2]
    have h1 : 2 ^ (a + b) + 2 ^ a ≤ 2 ^ 64 := by
      have h2 : 2 ^ (a + b) ≤ 2 ^ 63 := Nat.pow_le_pow_right (by norm_num) (by omega)
      have h3 : 2 ^ a ≤ 2 ^ 63 := Nat.pow_le_pow_right (by norm_num) (by omega)
      omega
    calc ((2 ^ (a + b) + 2 ^ a : Nat) : ℚ) ≤ ((2 ^ 64 : Nat) : ℚ) := by exact_mod_cast h1
      _ < 2 ^ 251 := by norm_num
  obtain ⟨p, hp1, hp2, hp3, hp4⟩ := Rep.prove env (new := CairoAir.new)
    (mainTrace := trace) (pubInputs := pi) (options := options)
    (air := air (2 ^ a) pi options) (by rw [htab]; rfl) hd boundary_count r (m := n) hn
  have hdraws : (air (2 ^ a) pi options).numRapChallenges + 2 * 8
      + 2 * (air (2 ^ a) pi options).context.numTransitionConstraints + r + Rep.draws4 (air (2 ^ a) pi options) d
      = N := by
    rw [← hnt]
    unfold Rep.draws4
    rw [← hcol, D.rootOrder]
    show s + r + (2 + 2 * columns + (a - 1 + 1) + 1 + options.friNumberOfQueries) = N
    omega
  rw [hdraws] at hp1
  refine ⟨p, hp1, hp2, ?_, hp4⟩
  refine hp3.trans (add_le_add (pow_le_pow_left₀ (probability_nonneg _) hpoint r)
    (pow_le_pow_left₀ (probability_nonneg _) (le_trans (probability_mono fun x hx => ?_) (probability_target hg)) n))
  intro hc
  exact hx ((le_trailingZeros 64 _ _ (by
    have h1 := beNat_lt (x.val.take 8)
    rw [List.length_take, x.property] at h1
    exact h1.trans_le (by norm_num))).2 ⟨hg, hc⟩)

/-- **C81** for random hash functions: for every run of the Cairo machine as in C44, with the hash function of the
transcript drawn from all functions of messages of at most `L` bytes, `L` large enough for the messages of the run, and
that of the proof of work from all functions of 40 bytes, `generate_cairo_proof` returns a proof and
`verify_cairo_proof` accepts it, except with probability at most the sum of the bound of `C81_honest_run` and
`N (N + 1) / 2 / 2^256`, for the transcript to come back to a state it has been in. `N` is the number of challenges the
transcript is asked for: those before the point, `r` candidates for the point, two coefficients for the composition
polynomial and two for each column, one challenge for each layer of FRI, the seed of the proof of work and the
queries. -/
theorem C81_random_hash (hta : env.ta = starkRoots) (hof : ∀ d, randomnessToField 252 d = .ok (env.ofDigest d))
    {mem : CairoMemory} {m : FE → FE}
    {states : List RegistersState} (run : HonestRun mem m states) {size : Nat} {segs : MemorySegmentMap}
    {pi pi' : PublicInputs} (hpi : fromRegsAndMem states mem size segs = .ok pi) (hsize : size < 2 ^ 64)
    (hzero : mem.get? 0 = none) (hpc : ∃ t ∈ states, t.pc ≤ size)
    (hsegs : segs = [] ∨ ∃ r, segs.get? .rangeCheck = some r) (hb : BuiltinValues mem segs)
    (hout : OutputAfterProgram size segs) (hcov : OutputCovered m states size segs)
    {main : List (List FE)} (hmain : buildMainTrace states mem pi = .ok (main, pi'))
    {options : ProofOptions} {a b : Nat} (hlen : main.length = 2 ^ a) (hab : a + b < 64) (hb1 : 1 ≤ b)
    (hbl : options.blowupFactor.toNat = 2 ^ b) (hsq : ¬ IsSquare (options.cosetOffset : FE))
    (hg : options.grindingFactor.toNat ≤ 64) {s columns N : Nat} (r : Nat) {n : Nat}
    (hs : s = 3 + 2 * 8 + 2 * (if segs = [] then 49 else 50)) (hcolumns : columns = if segs = [] then 52 else 61)
    (hN : N = s + r + 2 + 2 * columns + a + 1 + options.friNumberOfQueries) (hn : n < 2 ^ 64 - 1) :
    ∃ L₀, ∀ L ≥ L₀,
    1 - (11 * 2 ^ a / 2 ^ 251 + ((2 ^ (a + b) + 2 ^ a) / 2 ^ 251) ^ r
        + (1 - 1 / 2 ^ options.grindingFactor.toNat) ^ n + N * (N + 1) / 2 / 2 ^ 256)
      ≤ probability ((Message L → Commitment) × (WorkMessage → Commitment)) fun ω =>
          ∃ proof,
            generateCairoProof (hashing env ω.1 ω.2) ⟨main.flatten, (main.headD []).length⟩ pi' options = .ok proof ∧
            verifyCairoProof (hashing env ω.1 ω.2) proof pi' options = .ok true := by
  have := Prog.commitment_nonempty
  obtain ⟨⟨a', ha, hlen'⟩, hw, hhd, -, -, lo, hi, hpi'⟩ := main_shape hmain
  obtain rfl : a' = a := Nat.pow_right_injective le_rfl (hlen'.symm.trans hlen)
  have hk : 0 < mainWidth pi := by have := mainWidth_ge pi; omega
  have hpub : (accesses main ++ pi.publicMemory).length ≤ 8 * 2 ^ a' := by
    obtain ⟨exec, rcHoles, lo', hi', holes, last1, last2, k, M⟩ := buildMainTrace_ok hmain
    have hl : main.length = _ := congrArg List.length M.rows_eq
    rw [List.length_append, List.length_replicate] at hl
    have hkge := M.k_ge
    rw [List.length_append, length_accesses, hlen] at *
    omega
  have htab : (⟨main.flatten, (main.headD []).length⟩ : TraceTable FE).nRows = 2 ^ a' := by
    rw [hhd, ← hlen]
    exact TraceTable.nRows_ofRows main _ hk hw
  have hms : pi'.memorySegments = segs := by
    rw [hpi']
    exact (fromRegsAndMem_regs hpi).choose_spec.choose_spec.2.2.2.2.2.2.2
  rw [← hms] at hs hcolumns
  obtain ⟨d, g, w, hd, -, ⟨d0, hd0⟩, p, hp1, hp2, e5, hp4⟩ := cairo_prog hta hof ha hab hbl hg htab r hs hcolumns hN
    (by omega : n < 2 ^ 64)
  refine ⟨p.width 0, fun L hL => ?_⟩
  rw [probability_not, sub_le_sub_iff_left]
  let B : Option (Outcome Empty (StarkProof FE × Challenges FE (RAPChallenges FE))) → Prop := fun o =>
    ∀ x, o ≠ some (.ok x)
  let place : (Fin N → Commitment) → (Fin n → Commitment) → Env FE Nat := fun δ κ =>
    answering (zeroWork env) (fun _ => d0) δ (r := 0) Fin.elim0 κ
  have h1 : ∀ δ κ i b, (place δ κ).tr.append i b = i := fun _ _ _ _ => rfl
  have h2 : ∀ δ κ i (h : i < N), (place δ κ).tr.challenge i = (δ ⟨i, h⟩, i + 1) := fun δ κ i h => by
    show (if h : i < N then δ ⟨i, h⟩ else _, i + 1) = _
    rw [dif_pos h]
  have h3 : ∀ δ κ x (h : Prog.label x < n), (place δ κ).keccak x = κ ⟨Prog.label x, h⟩ := fun δ κ x h => by
    show (if h : leNat (x.drop 32) < n then κ ⟨leNat (x.drop 32), h⟩ else _) = _
    exact dif_pos h
  have e1 := Prog.transfer env hp1 hp2 hL B (tr := fun δ κ => (place δ κ).tr) (K := fun δ κ => (place δ κ).keccak)
    h1 h2 h3
  have e2 := Prog.probability_stop hp1 hp2 (tr := fun δ κ => (place δ κ).tr) (K := fun δ κ => (place δ κ).keccak)
    h1 h2 h3
  let bad : (Fin N → Commitment) → Prop := fun δ =>
    env.ofDigest (δ ⟨1, by omega⟩) ∈ (accesses main ++ pi.publicMemory).map
      (fun e => e.1 + env.ofDigest (δ ⟨0, by omega⟩) * e.2) ∨
      env.ofDigest (δ ⟨2, by omega⟩) ∈ getCols main [OFF_DST, OFF_OP0, OFF_OP1]
  have e3 : probability (Fin N → Commitment) bad ≤ 11 * 2 ^ a' / 2 ^ 251 :=
    probability_denominators hof (by omega) hpub (by rw [← hlen]; exact length_getCols _ _)
  have e3' := (probability_fst (Y := Fin n → Commitment) bad).trans e3
  have e4 : probability ((Fin N → Commitment) × (Fin n → Commitment))
      (fun ω => B ((p.run (place ω.1 ω.2).tr (place ω.1 ω.2).keccak 0).map Prod.fst))
      ≤ p.stopProb + 11 * 2 ^ a' / 2 ^ 251 := by
    refine (probability_mono (Q := fun ω : (Fin N → Commitment) × (Fin n → Commitment) =>
      p.run (place ω.1 ω.2).tr (place ω.1 ω.2).keccak 0 = none ∨ bad ω.1) ?_).trans ((probability_or _ _).trans
      (add_le_add e2 e3'))
    rintro ⟨δ, κ⟩ hB
    by_contra hc
    rw [not_or] at hc
    obtain ⟨hc1, hc2⟩ := hc
    obtain ⟨hc2, hc3⟩ := not_or.1 hc2
    obtain ⟨proof, hproof⟩ := honest_prover_draws hta run hpi hsize hzero hpc hsegs hb hout hcov hmain hlen hab hb1 hbl
      hsq hg hd hd0 (by omega) hn δ κ hc2 hc3
    obtain ⟨⟨o, t'⟩, hrun⟩ := Option.ne_none_iff_exists'.1 hc1
    have ho := (hp4 Nat (place δ κ).tr (place δ κ).keccak o t' hrun).2
    rw [over_answering, hproof] at ho
    obtain ⟨x, hx, -⟩ := Outcome.bind_eq_ok.1 ho.symm
    refine hB x ?_
    rw [hrun, hx]
    rfl
  rw [card_commitment] at e1
  refine le_trans (probability_mono fun ω hω x hc => hω ⟨x.1, ?_⟩) (e1.trans ?_)
  · obtain ⟨⟨o, t'⟩, hrun, ho⟩ := Option.map_eq_some_iff.1 hc
    have hgen : generateCairoProof (hashing env ω.1 ω.2) ⟨main.flatten, (main.headD []).length⟩ pi' options
        = .ok x.1 := by
      have := (hp4 Bytes (hashing env ω.1 ω.2).tr (hashing env ω.1 ω.2).keccak o t' hrun).2
      rw [over_hashing] at this
      rw [this, show o = .ok x from ho]
      rfl
    exact ⟨hgen, C44_cairo_honest_proofs_verify (env := hashing env ω.1 ω.2) hta run hpi hsize hzero hpc hsegs hb hout hcov hmain hb1
      hbl hsq hgen⟩
  · linarith

/-- **C81** for the commands and random hash functions: for every program that the virtual machine runs honestly, `prove`
writes a file to a writable path and `verify` reports success on that file, except with probability at most the bound of
`C81_random_hash` for the default options (an extension by four, one bit of proof of work and three queries). -/
theorem C81_commands_random_hash (hta : env.ta = starkRoots)
    (hof : ∀ d, randomnessToField 252 d = .ok (env.ofDigest d)) {vm : Vm} {w : World}
    {name inp out : String} {args : List String} {program : Bytes}
    (hread : w.read inp = some program) (hwritable : w.writable out = true) {version : CairoVersion}
    {layout : CairoLayout} (has : RunAs inp version layout) {run : VmRun}
    (hvm : vm version layout program = .ok run) {m : FE → FE}
    {states : List RegistersState} (honest : HonestVmRun run m states) (hsize : run.dataLen < 2 ^ 57)
    {tab : TraceTable FE} {pi : PublicInputs}
    (hargs : generateProverArgs vm program version none = .ok (tab, pi))
    {a : Nat} (hlen : tab.nRows = 2 ^ a) (hab : a + 2 < 64) {s columns N : Nat} (r : Nat) {n : Nat}
    (hs : s = 3 + 2 * 8 + 2 * (if pi.memorySegments = [] then 49 else 50))
    (hcolumns : columns = if pi.memorySegments = [] then 52 else 61)
    (hN : N = s + r + 2 + 2 * columns + a + 1 + 3) (hn : n < 2 ^ 64 - 1) :
    ∃ L₀, ∀ L ≥ L₀,
    1 - (11 * 2 ^ a / 2 ^ 251 + ((2 ^ (a + 2) + 2 ^ a) / 2 ^ 251) ^ r + (1 / 2) ^ n + N * (N + 1) / 2 / 2 ^ 256)
      ≤ probability ((Message L → Commitment) × (WorkMessage → Commitment)) fun ω =>
          ∃ file,
            Cli.main (hashing env ω.1 ω.2) vm w (name :: "prove" :: inp :: out :: args) = .ok (.wrote out file) ∧
            ∀ (vm' : Vm) (w' : World) (name' : String) (args' : List String), w'.read out = some file →
              Cli.main (hashing env ω.1 ω.2) vm' w' (name' :: "verify" :: out :: args') = .ok (.verdict true) := by
  have has' := has
  obtain ⟨rfl, rfl⟩ := runAs_version has
  obtain ⟨states', mem, size, rc, pi0, main, h1, h2, h3, htab⟩ := generateProverArgs_ok hargs
  obtain ⟨mem', h1', hmem'⟩ := runProgram_ok hvm honest.toMachineRun
  rw [h1] at h1'
  simp only [Outcome.ok.injEq, Prod.mk.injEq] at h1'
  obtain ⟨rfl, rfl, rfl, rfl⟩ := h1'
  obtain ⟨mem0, hmem0, hrun⟩ := honest.run
  obtain ⟨ho, hrcs, hsegs, -, -⟩ := segments_cli (rangeCheckRange run)
  have hspec := rangeCheckRange_spec run
  obtain ⟨-, hw, hhd, -, -, lo, hi, hpi'⟩ := main_shape h3
  have hk : 0 < mainWidth pi0 := by have := mainWidth_ge pi0; omega
  have hnr : main.length = 2 ^ a := by
    rw [← hlen, htab, hhd]; exact (TraceTable.nRows_ofRows main _ hk hw).symm
  have hms := (fromRegsAndMem_regs h2).choose_spec.choose_spec.2.2.2.2.2.2.2
  have hpims : pi.memorySegments = createMemorySegmentMap (rangeCheckRange run) none := by
    rw [← hms, hpi']
  rw [hpims] at hs hcolumns
  obtain ⟨L₀, key⟩ := C81_random_hash hta hof
    (HonestRun.same hrun fun a => (hmem' a).trans (hmem0 a).symm)
    h2 honest.size ((hmem' 0).trans honest.zero) honest.pc hsegs
    (by
      intro s e hse n hs he
      rw [hrcs] at hse
      cases hb : run.rangeCheckBuiltin with
      | none => rw [hspec.1 hb] at hse; cases hse
      | some x =>
        obtain ⟨idx, stop⟩ := x
        rw [hspec.2 idx stop hb] at hse
        obtain ⟨rfl, rfl⟩ := Prod.mk.inj (Option.some.inj hse)
        obtain ⟨v, h4, h5⟩ := honest.builtin idx stop hb n hs he
        exact ⟨v, (hmem' n).trans h4, h5⟩)
    (by intro s e h; rw [ho] at h; cases h) (ExecTrace.covered_of_no_output ho) h3
    (options := ProofOptions.defaultTestOptions) (b := 2) hnr hab
    (by norm_num) (by decide) (by exact_mod_cast three_not_square) (by decide) r hs hcolumns hN hn
  refine ⟨L₀, fun L hL => ?_⟩
  have key := key L hL
  rw [show ProofOptions.defaultTestOptions.grindingFactor.toNat = 1 from rfl] at key
  rw [show (1 / 2 : ℚ) = 1 - 1 / 2 ^ 1 by norm_num]
  refine key.trans (probability_mono ?_)
  rintro ω ⟨proof, hproof, -⟩
  rw [← htab] at hproof
  obtain ⟨-, -, hlayers⟩ := cli_wellformed hargs hvm honest.toMachineRun hproof
  obtain ⟨bs, hbs⟩ := (C01_serialize_total_iff proof).2 hlayers
  have hwrite : ∃ file, writeProofFile proof pi = .ok file := by
    unfold writeProofFile
    rw [hbs]
    exact ⟨_, rfl⟩
  obtain ⟨file, hfile⟩ := hwrite
  have hprove : Cli.main (hashing env ω.1 ω.2) vm w (name :: "prove" :: inp :: out :: args)
      = .ok (.wrote out file) := by
    simp only [Cli.main, if_true, proveCommand, generateProof, hread, Outcome.okOr, Outcome.bind_ok, hargs,
      hproof, Outcome.unwrapErr, Outcome.pure_eq, hfile, hwritable, finish]
  exact ⟨file, hprove, fun vm' w' name' args' hr =>
    (C59_prove_then_verify (env := hashing env ω.1 ω.2) hta hread has' hvm honest hsize hprove hr).2⟩

/-- The run of `simple_program` with the default test options, one candidate for the point and 100 nonces: for random
hash functions the proof exists and is accepted with probability at least `1 - 1/2^99`. -/
example : ∃ L₀, ∀ L ≥ L₀,
    1 - 1 / 2 ^ 99 ≤ probability ((Message L → Commitment) × (WorkMessage → Commitment)) fun ω =>
      ∃ proof,
        generateCairoProof (hashing envDrawn ω.1 ω.2)
          ⟨Examples.main0.1.flatten, (Examples.main0.1.headD []).length⟩ Examples.main0.2 ProofOptions.defaultTestOptions
          = .ok proof ∧
        verifyCairoProof (hashing envDrawn ω.1 ω.2) proof Examples.main0.2 ProofOptions.defaultTestOptions
          = .ok true := by
  have hsq : ¬ IsSquare (ProofOptions.defaultTestOptions.cosetOffset : FE) := by
    exact_mod_cast three_not_square
  have hpc : ∃ t ∈ Examples.states, t.pc ≤ 5 := ⟨⟨1, 8, 8⟩, by decide, by decide⟩
  have hb : BuiltinValues Examples.mem [] := by intro s e h; cases h
  have ho : OutputAfterProgram 5 [] := by intro s e h; cases h
  have hc : OutputCovered Examples.m Examples.states 5 [] := covered_of_no_output rfl
  have hmain : buildMainTrace Examples.states Examples.mem Examples.pi0
      = .ok (Examples.main0.1, Examples.main0.2) := by
    rw [Examples.main0_eq, Prod.mk.eta]
  obtain ⟨L₀, h⟩ := C81_random_hash (env := envDrawn) (a := 3) (b := 2) (main := Examples.main0.1)
    (pi' := Examples.main0.2) (options := ProofOptions.defaultTestOptions) rfl envDrawn_challenges example_run
    Examples.pi0_eq (by norm_num) (by decide +kernel)
    hpc (.inl rfl) hb ho hc hmain Examples.main0_length (by norm_num) (by norm_num) (by decide) hsq (by decide)
    (s := 117) (columns := 52) (N := 231) 1 (n := 100) rfl rfl rfl (by norm_num)
  refine ⟨L₀, fun L hL => le_trans ?_ (h L hL)⟩
  rw [show ProofOptions.defaultTestOptions.grindingFactor.toNat = 1 from rfl]
  norm_num

/-- The commands on this run. -/
example : ∃ L₀, ∀ L ≥ L₀,
    1 - 1 / 2 ^ 99 ≤ probability ((Message L → Commitment) × (WorkMessage → Commitment)) fun ω =>
      ∃ file,
        Cli.main (hashing envDrawn ω.1 ω.2) Examples.vm0 Examples.world0
          ["prover", "prove", "simple.json", "simple.proof"] = .ok (.wrote "simple.proof" file) ∧
        ∀ (vm' : Vm) (w' : World) (name' : String) (args' : List String), w'.read "simple.proof" = some file →
          Cli.main (hashing envDrawn ω.1 ω.2) vm' w' (name' :: "verify" :: "simple.proof" :: args')
            = .ok (.verdict true) := by
  have hn : (⟨Verif.Examples.main0.1.flatten, (Verif.Examples.main0.1.headD []).length⟩ :
      TraceTable FE).nRows = 2 ^ 3 := by decide +kernel
  obtain ⟨L₀, h⟩ := C81_commands_random_hash (env := envDrawn) (vm := Examples.vm0) (w := Examples.world0)
    (name := "prover") (args := []) rfl envDrawn_challenges (program := []) (out := "simple.proof") rfl rfl
    Examples.simple_runAs rfl Examples.run0_honest (by decide) Examples.args0 hn (by norm_num) (s := 117) (columns := 52)
    (N := 231) 1 (n := 100) (by rw [if_pos (by decide +kernel)]) (by rw [if_pos (by decide +kernel)]) rfl (by norm_num)
  refine ⟨L₀, fun L hL => le_trans ?_ (h L hL)⟩
  norm_num

end Verif.Props
