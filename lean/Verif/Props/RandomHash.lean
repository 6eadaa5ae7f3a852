import Verif.Props.RandomOracle

/-!
# C77 and C79 for random hash functions
-/

namespace Verif.Props
open Runner Cli Verif.Spec Random Proximity CairoAir ExecTrace Transcript TraceTable
variable {T : Type} {env : Env FE T}

/-- The digests of a run, in three parts. -/
def splitDraws (D : Type) (s q n : Nat) :
    (Fin q → D) × (Fin s → D) × (Fin 1 → D) × (Fin n → D) ≃ (Fin (s + (1 + q)) → D) × (Fin n → D) where
  toFun x := (Fin.append x.2.1 (Fin.append x.2.2.1 x.1), x.2.2.2)
  invFun y := (fun i => y.1 (Fin.natAdd s (Fin.natAdd 1 i)), fun i => y.1 (Fin.castAdd _ i),
    fun i => y.1 (Fin.natAdd s (Fin.castAdd q i)), y.2)
  left_inv x := by
    obtain ⟨x, y, z, w⟩ := x
    simp only [Fin.append_left, Fin.append_right]
  right_inv y := by
    obtain ⟨y, w⟩ := y
    refine Prod.ext ?_ rfl
    refine funext fun i => ?_
    refine Fin.addCases (fun i => ?_) (fun i => ?_) i
    · exact Fin.append_left _ _ i
    · refine (Fin.append_right _ _ i).trans ?_
      refine Fin.addCases (fun i => ?_) (fun i => ?_) i
      · exact Fin.append_left _ _ i
      · exact Fin.append_right _ _ i

theorem answering_split (d0 : Commitment) {s q n : Nat} (u : Fin q → Commitment) (ρ : Fin s → Commitment)
    (ζ : Fin 1 → Commitment) (κ : Fin n → Commitment) :
    answering env (fun _ => d0) (Fin.append ρ (Fin.append ζ u)) (r := 0) Fin.elim0 κ
      = answering env (fun i => if h : i - (s + 1) < q then u ⟨i - (s + 1), h⟩ else d0) ρ ζ κ := by
  have h : ∀ i, (if h : i < s + (1 + q) then Fin.append ρ (Fin.append ζ u) ⟨i, h⟩ else
      if h : i - (s + (1 + q)) < 0 then Fin.elim0 ⟨i - (s + (1 + q)), h⟩ else d0)
      = if h : i < s then ρ ⟨i, h⟩ else if h : i - s < 1 then ζ ⟨i - s, h⟩ else
        if h : i - (s + 1) < q then u ⟨i - (s + 1), h⟩ else d0 := by
    intro i
    by_cases h1 : i < s
    · rw [dif_pos (by omega), dif_pos h1]
      exact Fin.append_left ρ _ ⟨i, h1⟩
    rw [dif_neg h1]
    obtain ⟨i, rfl⟩ : ∃ j, i = s + j := ⟨i - s, by omega⟩
    by_cases h2 : i < 1
    · rw [dif_pos (by omega), dif_pos (by omega)]
      refine (Fin.append_right ρ _ ⟨i, by omega⟩).trans ((Fin.append_left ζ u ⟨i, h2⟩).trans ?_)
      exact congrArg ζ (Fin.ext (by simp))
    rw [dif_neg (by omega : ¬ s + i - s < 1)]
    obtain ⟨i, rfl⟩ : ∃ j, i = 1 + j := ⟨i - 1, by omega⟩
    by_cases h3 : i < q
    · rw [dif_pos (by omega), dif_pos (by omega)]
      refine (Fin.append_right ρ _ ⟨1 + i, by omega⟩).trans ((Fin.append_right ζ u ⟨i, h3⟩).trans ?_)
      exact congrArg u (Fin.ext (by show i = s + (1 + i) - (s + 1); omega))
    · rw [dif_neg (by omega), dif_neg (by omega), dif_neg (by omega)]
  have hc : (fun n : Nat => ((if h : n < s + (1 + q) then Fin.append ρ (Fin.append ζ u) ⟨n, h⟩ else
      if h : n - (s + (1 + q)) < 0 then Fin.elim0 ⟨n - (s + (1 + q)), h⟩ else d0), n + 1))
      = fun i => ((if h : i < s then ρ ⟨i, h⟩ else if h : i - s < 1 then ζ ⟨i - s, h⟩ else
        if h : i - (s + 1) < q then u ⟨i - (s + 1), h⟩ else d0), i + 1) := by
    funext i
    rw [h]
  unfold answering
  rw [hc]

theorem probability_split {s q n : Nat} {E : Env FE Nat → Prop} {ε : ℚ} (hε : 0 ≤ ε)
    (h : ∀ rest, probability ((Fin s → Commitment) × (Fin 1 → Commitment) × (Fin n → Commitment))
      (fun ω => E (answering env rest ω.1 ω.2.1 ω.2.2)) ≤ ε) (d0 : Commitment) :
    probability ((Fin (s + (1 + q)) → Commitment) × (Fin n → Commitment))
      (fun ω => E (answering env (fun _ => d0) ω.1 (r := 0) Fin.elim0 ω.2)) ≤ ε := by
  have := Prog.commitment_nonempty
  rw [← probability_equiv (splitDraws Commitment s q n)]
  refine probability_snd hε fun u => ?_
  refine (probability_mono fun ω hω => ?_).trans (h fun i => if h : i - (s + 1) < q then u ⟨i - (s + 1), h⟩ else d0)
  rw [← answering_split]
  exact hω

/-- What happens to the proof of the prover for random hash functions happens for drawn digests, up to collisions. -/
theorem cairo_transfer (hta : env.ta = starkRoots) (hof : ∀ d, randomnessToField 252 d = .ok (env.ofDigest d))
    {pi other : PublicInputs} {options : ProofOptions} {a b : Nat}
    (B : SameButBoundary (air (2 ^ a) pi options) (air (2 ^ a) other options)) (ha : 1 ≤ a) (hab : a + b < 64)
    (hbl : options.blowupFactor.toNat = 2 ^ b) (hg : options.grindingFactor.toNat ≤ 64) {trace : TraceTable FE}
    (htab : trace.nRows = 2 ^ a) {s columns N : Nat} (r : Nat) {n : Nat}
    (hs : s = 3 + 2 * 8 + 2 * (if pi.memorySegments = [] then 49 else 50))
    (hcolumns : columns = if pi.memorySegments = [] then 52 else 61)
    (hN : N = s + r + 2 + 2 * columns + a + 1 + options.friNumberOfQueries) (hn : n < 2 ^ 64)
    (V : Outcome Empty Bool → Outcome Empty Bool → Prop) {ε : ℚ} (hε : 0 ≤ ε)
    (h : ∀ rest, probability ((Fin s → Commitment) × (Fin 1 → Commitment) × (Fin n → Commitment)) (fun ω =>
      ∃ proof, generateCairoProof (answering env rest ω.1 ω.2.1 ω.2.2) trace pi options = .ok proof ∧
        V (verifyCairoProof (answering env rest ω.1 ω.2.1 ω.2.2) proof pi options)
          (verifyCairoProof (answering env rest ω.1 ω.2.1 ω.2.2) proof other options)) ≤ ε) :
    ∃ L₀, ∀ L ≥ L₀,
      probability ((Message L → Commitment) × (WorkMessage → Commitment)) (fun ω =>
        ∃ proof, generateCairoProof (hashing env ω.1 ω.2) trace pi options = .ok proof ∧
          V (verifyCairoProof (hashing env ω.1 ω.2) proof pi options)
            (verifyCairoProof (hashing env ω.1 ω.2) proof other options))
        ≤ ε + (((2 ^ (a + b) + 2 ^ a) / 2 ^ 251) ^ r + (1 - 1 / 2 ^ options.grindingFactor.toNat) ^ n
          + N * (N + 1) / 2 / 2 ^ 256) := by
  have := Prog.commitment_nonempty
  obtain ⟨d, g, w, hd, D, ⟨d0, -⟩, p, hp1, hp2, hp3, hp4⟩ := cairo_prog hta hof ha hab hbl hg htab r hs hcolumns hN hn
  obtain ⟨q, hq⟩ : ∃ q, N = s + (1 + q) := ⟨N - s - 1, by omega⟩
  rw [hq] at hp1 ⊢
  clear hN
  refine ⟨p.width 0, fun L hL => ?_⟩
  let B' : Option (Outcome Empty (StarkProof FE × Challenges FE (RAPChallenges FE))) → Prop := fun o =>
    ∀ x, o = some x → ∃ proof c, x = .ok (proof, c) ∧
      V (Rep.verdict env (air (2 ^ a) pi options) d proof options.friNumberOfQueries c)
        (Rep.verdict env (air (2 ^ a) other options) d proof options.friNumberOfQueries c)
  -- the verdicts, from what the program returns
  have key : ∀ (T : Type) (tr : Transcript T) (K : Bytes → Commitment) o t', p.run tr K tr.init = some (o, t') →
      ((∃ proof, generateCairoProof (env.over tr K) trace pi options = .ok proof ∧
        V (verifyCairoProof (env.over tr K) proof pi options) (verifyCairoProof (env.over tr K) proof other options)) ↔
      ∃ proof c, o = .ok (proof, c) ∧
        V (Rep.verdict env (air (2 ^ a) pi options) d proof options.friNumberOfQueries c)
          (Rep.verdict env (air (2 ^ a) other options) d proof options.friNumberOfQueries c)) := by
    intro T tr K o t' hrun
    obtain ⟨h1, h2⟩ := hp4 T tr K o t' hrun
    have hv : ∀ proof c, o = .ok (proof, c) →
        verifyCairoProof (env.over tr K) proof pi options
          = Rep.verdict env (air (2 ^ a) pi options) d proof options.friNumberOfQueries c ∧
        verifyCairoProof (env.over tr K) proof other options
          = Rep.verdict env (air (2 ^ a) other options) d proof options.friNumberOfQueries c := by
      rintro proof c rfl
      obtain ⟨hl, t1, hs1⟩ := Rep.proveFrom_replay (e := env.over tr K) D h1
      have hl' : proof.traceLength = 2 ^ a := hl
      refine ⟨?_, ?_⟩
      · exact Rep.verify_eq_verdict (e := env.over tr K) (new := CairoAir.new) (air := air (2 ^ a) pi options)
          ⟨rfl, rfl, rfl, rfl, rfl, rfl, rfl, fun ch l l' h h' => by rw [Outcome.ok.inj (h.symm.trans h')]⟩
          (by rw [hl']; rfl) hd hs1
      · exact Rep.verify_eq_verdict (e := env.over tr K) (new := CairoAir.new) (air := air (2 ^ a) pi options) B
          (by rw [hl']; rfl) hd hs1
    constructor
    · rintro ⟨proof, h3, h4⟩
      rw [h3] at h2
      obtain ⟨⟨proof', c⟩, hx, he⟩ := Outcome.bind_eq_ok.1 h2.symm
      obtain rfl : proof' = proof := Outcome.ok.inj he
      obtain ⟨e1, e2⟩ := hv _ _ hx
      rw [e1, e2] at h4
      exact ⟨_, c, hx, h4⟩
    · rintro ⟨proof, c, rfl, h4⟩
      obtain ⟨e1, e2⟩ := hv _ _ rfl
      exact ⟨proof, h2, by rw [e1, e2]; exact h4⟩
  let place : (Fin (s + (1 + q)) → Commitment) → (Fin n → Commitment) → Env FE Nat := fun δ κ =>
    answering env (fun _ => d0) δ (r := 0) Fin.elim0 κ
  have h1 : ∀ δ κ i b, (place δ κ).tr.append i b = i := fun _ _ _ _ => rfl
  have h2 : ∀ δ κ i (h : i < s + (1 + q)), (place δ κ).tr.challenge i = (δ ⟨i, h⟩, i + 1) := fun δ κ i h => by
    show (if h : i < s + (1 + q) then δ ⟨i, h⟩ else _, i + 1) = _
    rw [dif_pos h]
  have h3 : ∀ δ κ x (h : Prog.label x < n), (place δ κ).keccak x = κ ⟨Prog.label x, h⟩ := fun δ κ x h => by
    show (if h : leNat (x.drop 32) < n then κ ⟨leNat (x.drop 32), h⟩ else _) = _
    exact dif_pos h
  have e1 := Prog.transfer env hp1 hp2 hL B' (tr := fun δ κ => (place δ κ).tr) (K := fun δ κ => (place δ κ).keccak)
    h1 h2 h3
  have e2 := Prog.probability_stop hp1 hp2 (tr := fun δ κ => (place δ κ).tr) (K := fun δ κ => (place δ κ).keccak)
    h1 h2 h3
  let E : Env FE Nat → Prop := fun e => ∃ proof, generateCairoProof e trace pi options = .ok proof ∧
    V (verifyCairoProof e proof pi options) (verifyCairoProof e proof other options)
  have e3 : probability ((Fin (s + (1 + q)) → Commitment) × (Fin n → Commitment)) (fun ω => E (place ω.1 ω.2)) ≤ ε :=
    probability_split (E := E) hε h d0
  have e4 : probability ((Fin (s + (1 + q)) → Commitment) × (Fin n → Commitment))
      (fun ω => B' ((p.run (place ω.1 ω.2).tr (place ω.1 ω.2).keccak 0).map Prod.fst)) ≤ p.stopProb + ε := by
    refine (probability_mono (Q := fun ω : (Fin (s + (1 + q)) → Commitment) × (Fin n → Commitment) =>
      p.run (place ω.1 ω.2).tr (place ω.1 ω.2).keccak 0 = none ∨ E (place ω.1 ω.2)) ?_).trans ((probability_or _ _).trans
      (add_le_add e2 e3))
    rintro ⟨δ, κ⟩ hB
    by_contra hc
    rw [not_or] at hc
    obtain ⟨⟨o, t'⟩, hrun⟩ := Option.ne_none_iff_exists'.1 hc.1
    refine hc.2 ((key Nat (place δ κ).tr (place δ κ).keccak o t' hrun).2 (hB o ?_))
    rw [hrun]
    rfl
  rw [card_commitment] at e1
  refine le_trans (probability_mono fun ω hω => ?_) (e1.trans ?_)
  · intro o ho
    obtain ⟨⟨o', t'⟩, hrun, rfl⟩ := Option.map_eq_some_iff.1 ho
    exact (key Bytes (hashing env ω.1 ω.2).tr (hashing env ω.1 ω.2).keccak o' t' hrun).1 hω
  · linarith

/-- **C79** for random hash functions: if the AIR accepts a main trace with no challenges, the probability that the prover
makes a proof of it and that the verifier accepts this proof is at most the bound of `C79_rejected_probability`, and the
probabilities that `r` candidates for the point are no points, that `n` nonces do no proof of work, and that the
transcript comes back to a state it has been in. The hash functions are drawn as in `C81_random_hash`. -/
theorem C79_random_hash (hta : env.ta = starkRoots) (hof : ∀ d, randomnessToField 252 d = .ok (env.ofDigest d))
    {pi : PublicInputs} {options : ProofOptions} {a b : Nat} (ha : 1 ≤ a) (hb1 : 1 ≤ b)
    (hab : a + b < 64) (hbl : options.blowupFactor.toNat = 2 ^ b) (hsq : ¬ IsSquare (options.cosetOffset : FE))
    (hg : options.grindingFactor.toNat ≤ 64)
    {main : List (List FE)} (hlen : main.length = 2 ^ a)
    (hw : ∀ r ∈ main, r.length = 43 - builtinOffset (hasRcBuiltin pi)) (hsteps : pi.numSteps ≤ 2 ^ a)
    (hbad : ∀ ch aux, ExecTrace.buildAuxiliaryTrace pi main ch = .ok aux →
      ¬ Accepted pi options (List.zipWith (· ++ ·) main aux) ch)
    {s columns N : Nat} (r : Nat) {n : Nat}
    (hs : s = 3 + 2 * 8 + 2 * (if pi.memorySegments = [] then 49 else 50))
    (hcolumns : columns = if pi.memorySegments = [] then 52 else 61)
    (hN : N = s + r + 2 + 2 * columns + a + 1 + options.friNumberOfQueries) (hn : n < 2 ^ 64) :
    ∃ L₀, ∀ L ≥ L₀,
      probability ((Message L → Commitment) × (WorkMessage → Commitment)) (fun ω =>
        ∃ proof, generateCairoProof (hashing env ω.1 ω.2)
            ⟨main.flatten, 43 - builtinOffset (hasRcBuiltin pi)⟩ pi options = .ok proof ∧
          verifyCairoProof (hashing env ω.1 ω.2) proof pi options = .ok true)
        ≤ (1 + 2 ^ (a + b) + 2 ^ (a + 1)) / 2 ^ 251 + (((2 ^ (a + b) + 2 ^ a) / 2 ^ 251) ^ r
          + (1 - 1 / 2 ^ options.grindingFactor.toNat) ^ n + N * (N + 1) / 2 / 2 ^ 256) := by
  have hk : 0 < 43 - builtinOffset (hasRcBuiltin pi) := by cases hasRcBuiltin pi <;> decide
  exact cairo_transfer hta hof (cairo_same rfl _ _) ha hab hbl hg
    ((TraceTable.nRows_ofRows main _ hk hw).trans hlen) r hs hcolumns hN hn (fun v _ => v = .ok true) (by positivity)
    fun rest => C79_rejected_probability hta hof ha hb1 hab hbl hsq hlen hw hsteps hbad rest hs

/-- **C77** for random hash functions: the probability that the prover makes a proof of a main trace, that the verifier
accepts it for `pi` and does not reject it with another value of one of the registers or bounds. -/
theorem C77_changed_input_random_hash (hta : env.ta = starkRoots)
    (hof : ∀ d, randomnessToField 252 d = .ok (env.ofDigest d))
    {pi other : PublicInputs} {k : Nat} (hc : ChangedInput pi k other) {options : ProofOptions} {a b : Nat}
    (ha : 1 ≤ a) (hb1 : 1 ≤ b) (hab : a + b < 64) (hbl : options.blowupFactor.toNat = 2 ^ b)
    (hsq : ¬ IsSquare (options.cosetOffset : FE)) (hg : options.grindingFactor.toNat ≤ 64)
    {main : List (List FE)} (hlen : main.length = 2 ^ a)
    (hw : ∀ r ∈ main, r.length = 43 - builtinOffset (hasRcBuiltin pi))
    {s columns N : Nat} (r : Nat) {n : Nat}
    (hs : s = 3 + 2 * 8 + 2 * (if pi.memorySegments = [] then 49 else 50))
    (hcolumns : columns = if pi.memorySegments = [] then 52 else 61)
    (hN : N = s + r + 2 + 2 * columns + a + 1 + options.friNumberOfQueries) (hn : n < 2 ^ 64) :
    ∃ L₀, ∀ L ≥ L₀,
      probability ((Message L → Commitment) × (WorkMessage → Commitment)) (fun ω =>
        ∃ proof, generateCairoProof (hashing env ω.1 ω.2)
            ⟨main.flatten, 43 - builtinOffset (hasRcBuiltin pi)⟩ pi options = .ok proof ∧
          verifyCairoProof (hashing env ω.1 ω.2) proof pi options = .ok true ∧
          verifyCairoProof (hashing env ω.1 ω.2) proof other options ≠ .ok false)
        ≤ 1 / 2 ^ 251 + (((2 ^ (a + b) + 2 ^ a) / 2 ^ 251) ^ r
          + (1 - 1 / 2 ^ options.grindingFactor.toNat) ^ n + N * (N + 1) / 2 / 2 ^ 256) := by
  have hk : 0 < 43 - builtinOffset (hasRcBuiltin pi) := by cases hasRcBuiltin pi <;> decide
  exact cairo_transfer hta hof (cairo_same (by cases hc <;> rfl) _ _) ha hab hbl hg
    ((TraceTable.nRows_ofRows main _ hk hw).trans hlen) r hs hcolumns hN hn
    (fun v v' => v = .ok true ∧ v' ≠ .ok false) (by positivity)
    fun rest => C77_changed_input_probability hof hc ha hb1 hbl hsq hlen hw rest hs

/-- **C77** for random hash functions and another public memory, as in `C77_changed_memory_probability`; `cells` is the
number of cells of the two memories. -/
theorem C77_changed_memory_random_hash (hta : env.ta = starkRoots)
    (hof : ∀ d, randomnessToField 252 d = .ok (env.ofDigest d))
    {pi : PublicInputs} {memory : HMap FE FE}
    (hne : ¬ (pi.publicMemory.filter (· ≠ (0, 0))).Perm (memory.filter (· ≠ (0, 0)))) {cells : Nat}
    (hcells : cells = pi.publicMemory.length + memory.length) {options : ProofOptions} {a b : Nat}
    (ha : 1 ≤ a) (hb1 : 1 ≤ b) (hab : a + b < 64) (hbl : options.blowupFactor.toNat = 2 ^ b)
    (hsq : ¬ IsSquare (options.cosetOffset : FE)) (hg : options.grindingFactor.toNat ≤ 64)
    {main : List (List FE)} (hlen : main.length = 2 ^ a)
    (hw : ∀ r ∈ main, r.length = 43 - builtinOffset (hasRcBuiltin pi))
    {s columns N : Nat} (r : Nat) {n : Nat}
    (hs : s = 3 + 2 * 8 + 2 * (if pi.memorySegments = [] then 49 else 50))
    (hcolumns : columns = if pi.memorySegments = [] then 52 else 61)
    (hN : N = s + r + 2 + 2 * columns + a + 1 + options.friNumberOfQueries) (hn : n < 2 ^ 64) :
    ∃ L₀, ∀ L ≥ L₀,
      probability ((Message L → Commitment) × (WorkMessage → Commitment)) (fun ω =>
        ∃ proof, generateCairoProof (hashing env ω.1 ω.2)
            ⟨main.flatten, 43 - builtinOffset (hasRcBuiltin pi)⟩ pi options = .ok proof ∧
          verifyCairoProof (hashing env ω.1 ω.2) proof pi options = .ok true ∧
          verifyCairoProof (hashing env ω.1 ω.2) proof { pi with publicMemory := memory } options ≠ .ok false)
        ≤ (4 * cells ^ 2 + 2 * cells + 1) / 2 ^ 251 + (((2 ^ (a + b) + 2 ^ a) / 2 ^ 251) ^ r
          + (1 - 1 / 2 ^ options.grindingFactor.toNat) ^ n + N * (N + 1) / 2 / 2 ^ 256) := by
  have hk : 0 < 43 - builtinOffset (hasRcBuiltin pi) := by cases hasRcBuiltin pi <;> decide
  have B : SameButBoundary (air (2 ^ a) pi options) (air (2 ^ a) { pi with publicMemory := memory } options) :=
    cairo_same (by rfl) _ _
  have h0 : (0 : ℚ) ≤ (4 * cells ^ 2 + 2 * cells + 1) / 2 ^ 251 := by positivity
  have h1 := fun rest => C77_changed_memory_probability hof hne ha hb1 hbl hsq hlen hw rest (r := 1) (n := n) hs hcells
  revert h0 h1
  generalize ((4 * cells ^ 2 + 2 * cells + 1) / 2 ^ 251 : ℚ) = ε
  intro h0 h1
  exact cairo_transfer hta hof B ha hab hbl hg
    ((TraceTable.nRows_ofRows main _ hk hw).trans hlen) r hs hcolumns hN hn
    (fun v v' => v = .ok true ∧ v' ≠ .ok false) h0 h1

/-- **C77** and C81 together for random hash functions: for an honest run, the prover makes a proof, the verifier accepts
it, and it rejects it with another value of one of the registers or bounds, except with probability at most the sum of
the bounds of the two. -/
theorem C77_honest_run_random_hash (hta : env.ta = starkRoots)
    (hof : ∀ d, randomnessToField 252 d = .ok (env.ofDigest d)) {mem : CairoMemory} {m : FE → FE}
    {states : List RegistersState} (run : HonestRun mem m states) {size : Nat} {segs : MemorySegmentMap}
    {pi pi' : PublicInputs} (hpi : fromRegsAndMem states mem size segs = .ok pi) (hsize : size < 2 ^ 64)
    (hzero : mem.get? 0 = none) (hpc : ∃ t ∈ states, t.pc ≤ size)
    (hsegs : segs = [] ∨ ∃ r, segs.get? .rangeCheck = some r) (hb : BuiltinValues mem segs)
    (hout : OutputAfterProgram size segs) (hcov : OutputCovered m states size segs)
    {main : List (List FE)} (hmain : buildMainTrace states mem pi = .ok (main, pi'))
    {other : PublicInputs} {k : Nat} (hc : ChangedInput pi' k other)
    {options : ProofOptions} {a b : Nat} (hlen : main.length = 2 ^ a) (hab : a + b < 64) (hb1 : 1 ≤ b)
    (hbl : options.blowupFactor.toNat = 2 ^ b) (hsq : ¬ IsSquare (options.cosetOffset : FE))
    (hg : options.grindingFactor.toNat ≤ 64) {s columns N : Nat} (r : Nat) {n : Nat}
    (hs : s = 3 + 2 * 8 + 2 * (if segs = [] then 49 else 50)) (hcolumns : columns = if segs = [] then 52 else 61)
    (hN : N = s + r + 2 + 2 * columns + a + 1 + options.friNumberOfQueries) (hn : n < 2 ^ 64 - 1) :
    ∃ L₀, ∀ L ≥ L₀,
    1 - ((11 * 2 ^ a + 1) / 2 ^ 251 + 2 * (((2 ^ (a + b) + 2 ^ a) / 2 ^ 251) ^ r
        + (1 - 1 / 2 ^ options.grindingFactor.toNat) ^ n + N * (N + 1) / 2 / 2 ^ 256))
      ≤ probability ((Message L → Commitment) × (WorkMessage → Commitment)) fun ω =>
          ∃ proof,
            generateCairoProof (hashing env ω.1 ω.2) ⟨main.flatten, (main.headD []).length⟩ pi' options = .ok proof ∧
            verifyCairoProof (hashing env ω.1 ω.2) proof pi' options = .ok true ∧
            verifyCairoProof (hashing env ω.1 ω.2) proof other options = .ok false := by
  obtain ⟨L₁, h1⟩ := C81_random_hash hta hof run hpi hsize hzero hpc hsegs hb hout hcov hmain hlen hab hb1 hbl hsq hg r
    hs hcolumns hN hn
  obtain ⟨ha, hw, hhd, hseg⟩ := honest_shape hpi hsegs hmain hlen
  obtain ⟨L₂, h2⟩ := C77_changed_input_random_hash hta hof hc ha hb1 hab hbl hsq hg hlen hw r
    (by rw [hseg]; exact hs) (by rw [hseg]; exact hcolumns) hN (by omega : n < 2 ^ 64)
  rw [← hhd] at h2
  refine ⟨max L₁ L₂, fun L hL => ?_⟩
  refine le_trans ?_ (sub_le_sub_right (h1 L (le_of_max_le_left hL)) _ |>.trans (sub_le_iff_le_add.2
    ((probability_mono ?_).trans ((probability_or _ _).trans (add_le_add le_rfl (h2 L (le_of_max_le_right hL)))))))
  · rw [add_div]
    linarith
  · rintro ω ⟨proof, h3, h4⟩
    exact (Classical.em (verifyCairoProof (hashing env ω.1 ω.2) proof other options = .ok false)).imp
      (fun h => ⟨proof, h3, h4, h⟩) fun h => ⟨proof, h3, h4, h⟩

/-- **C77** and C81 together for random hash functions and another public memory. -/
theorem C77_honest_memory_random_hash (hta : env.ta = starkRoots)
    (hof : ∀ d, randomnessToField 252 d = .ok (env.ofDigest d)) {mem : CairoMemory} {m : FE → FE}
    {states : List RegistersState} (run : HonestRun mem m states) {size : Nat} {segs : MemorySegmentMap}
    {pi pi' : PublicInputs} (hpi : fromRegsAndMem states mem size segs = .ok pi) (hsize : size < 2 ^ 64)
    (hzero : mem.get? 0 = none) (hpc : ∃ t ∈ states, t.pc ≤ size)
    (hsegs : segs = [] ∨ ∃ r, segs.get? .rangeCheck = some r) (hb : BuiltinValues mem segs)
    (hout : OutputAfterProgram size segs) (hcov : OutputCovered m states size segs)
    {main : List (List FE)} (hmain : buildMainTrace states mem pi = .ok (main, pi'))
    {memory : HMap FE FE} (hne : ¬ (pi'.publicMemory.filter (· ≠ (0, 0))).Perm (memory.filter (· ≠ (0, 0))))
    {cells : Nat} (hcells : cells = pi'.publicMemory.length + memory.length)
    {options : ProofOptions} {a b : Nat} (hlen : main.length = 2 ^ a) (hab : a + b < 64) (hb1 : 1 ≤ b)
    (hbl : options.blowupFactor.toNat = 2 ^ b) (hsq : ¬ IsSquare (options.cosetOffset : FE))
    (hg : options.grindingFactor.toNat ≤ 64) {s columns N : Nat} (r : Nat) {n : Nat}
    (hs : s = 3 + 2 * 8 + 2 * (if segs = [] then 49 else 50)) (hcolumns : columns = if segs = [] then 52 else 61)
    (hN : N = s + r + 2 + 2 * columns + a + 1 + options.friNumberOfQueries) (hn : n < 2 ^ 64 - 1) :
    ∃ L₀, ∀ L ≥ L₀,
    1 - ((11 * 2 ^ a + (4 * cells ^ 2 + 2 * cells + 1)) / 2 ^ 251 + 2 * (((2 ^ (a + b) + 2 ^ a) / 2 ^ 251) ^ r
        + (1 - 1 / 2 ^ options.grindingFactor.toNat) ^ n + N * (N + 1) / 2 / 2 ^ 256))
      ≤ probability ((Message L → Commitment) × (WorkMessage → Commitment)) fun ω =>
          ∃ proof,
            generateCairoProof (hashing env ω.1 ω.2) ⟨main.flatten, (main.headD []).length⟩ pi' options = .ok proof ∧
            verifyCairoProof (hashing env ω.1 ω.2) proof pi' options = .ok true ∧
            verifyCairoProof (hashing env ω.1 ω.2) proof { pi' with publicMemory := memory } options = .ok false := by
  obtain ⟨L₁, h1⟩ := C81_random_hash hta hof run hpi hsize hzero hpc hsegs hb hout hcov hmain hlen hab hb1 hbl hsq hg r
    hs hcolumns hN hn
  obtain ⟨ha, hw, hhd, hseg⟩ := honest_shape hpi hsegs hmain hlen
  obtain ⟨L₂, h2⟩ := C77_changed_memory_random_hash hta hof hne hcells ha hb1 hab hbl hsq hg hlen hw r
    (by rw [hseg]; exact hs) (by rw [hseg]; exact hcolumns) hN (by omega : n < 2 ^ 64)
  rw [← hhd] at h2
  refine ⟨max L₁ L₂, fun L hL => ?_⟩
  refine le_trans ?_ (sub_le_sub_right (h1 L (le_of_max_le_left hL)) _ |>.trans (sub_le_iff_le_add.2
    ((probability_mono ?_).trans ((probability_or _ _).trans (add_le_add le_rfl (h2 L (le_of_max_le_right hL)))))))
  · rw [add_div]
    linarith
  · rintro ω ⟨proof, h3, h4⟩
    exact (Classical.em (verifyCairoProof (hashing env ω.1 ω.2) proof { pi' with publicMemory := memory } options
      = .ok false)).imp (fun h => ⟨proof, h3, h4, h⟩) fun h => ⟨proof, h3, h4, h⟩

/-- The run of `simple_program`: for random hash functions, with probability at least `1 - 1/2^98` there is a proof, it
is accepted, and it is rejected when another final `ap` is claimed. -/
example : ∃ L₀, ∀ L ≥ L₀,
    1 - 1 / 2 ^ 98 ≤ probability ((Message L → Commitment) × (WorkMessage → Commitment)) fun ω =>
      ∃ proof,
        generateCairoProof (hashing envDrawn ω.1 ω.2)
          ⟨Examples.main0.1.flatten, (Examples.main0.1.headD []).length⟩ Examples.main0.2 ProofOptions.defaultTestOptions
          = .ok proof ∧
        verifyCairoProof (hashing envDrawn ω.1 ω.2) proof Examples.main0.2 ProofOptions.defaultTestOptions = .ok true ∧
        verifyCairoProof (hashing envDrawn ω.1 ω.2) proof
          { Examples.main0.2 with apFinal := Examples.main0.2.apFinal + 1 }
          ProofOptions.defaultTestOptions = .ok false := by
  have hpc : ∃ t ∈ Examples.states, t.pc ≤ 5 := ⟨⟨1, 8, 8⟩, by decide, by decide⟩
  have hb : BuiltinValues Examples.mem [] := by intro s e h; cases h
  have ho : OutputAfterProgram 5 [] := by intro s e h; cases h
  have hc : OutputCovered Examples.m Examples.states 5 [] := covered_of_no_output rfl
  have hmain : buildMainTrace Examples.states Examples.mem Examples.pi0
      = .ok (Examples.main0.1, Examples.main0.2) := by
    rw [Examples.main0_eq, Prod.mk.eta]
  obtain ⟨L₀, h⟩ := C77_honest_run_random_hash (env := envDrawn) (a := 3) (b := 2) (main := Examples.main0.1)
    (pi' := Examples.main0.2) (options := ProofOptions.defaultTestOptions) rfl envDrawn_challenges example_run
    Examples.pi0_eq (by norm_num) (by decide +kernel) hpc (.inl rfl) hb ho hc hmain
    (.apFinal (Examples.main0.2.apFinal + 1) (by simp))
    Examples.main0_length (by norm_num) (by norm_num) (by decide) three_nonsquare (by decide)
    (s := 117) (columns := 52) (N := 231) 1 (n := 100) rfl rfl rfl (by norm_num)
  refine ⟨L₀, fun L hL => le_trans ?_ (h L hL)⟩
  rw [show ProofOptions.defaultTestOptions.grindingFactor.toNat = 1 from rfl]
  norm_num

/-- The same run, and the public memory without its first cell, or with another value in it. -/
example (memory : HMap FE FE)
    (hm : memory = Examples.main0.2.publicMemory.tail ∨ memory = (1, 7) :: Examples.main0.2.publicMemory.tail) :
    ∃ L₀, ∀ L ≥ L₀,
    1 - 1 / 2 ^ 98 ≤ probability ((Message L → Commitment) × (WorkMessage → Commitment)) fun ω =>
      ∃ proof,
        generateCairoProof (hashing envDrawn ω.1 ω.2)
          ⟨Examples.main0.1.flatten, (Examples.main0.1.headD []).length⟩ Examples.main0.2 ProofOptions.defaultTestOptions
          = .ok proof ∧
        verifyCairoProof (hashing envDrawn ω.1 ω.2) proof Examples.main0.2 ProofOptions.defaultTestOptions = .ok true ∧
        verifyCairoProof (hashing envDrawn ω.1 ω.2) proof { Examples.main0.2 with publicMemory := memory }
          ProofOptions.defaultTestOptions = .ok false := by
  have hpc : ∃ t ∈ Examples.states, t.pc ≤ 5 := ⟨⟨1, 8, 8⟩, by decide, by decide⟩
  have hb : BuiltinValues Examples.mem [] := by intro s e h; cases h
  have ho : OutputAfterProgram 5 [] := by intro s e h; cases h
  have hc : OutputCovered Examples.m Examples.states 5 [] := covered_of_no_output rfl
  have hmain : buildMainTrace Examples.states Examples.mem Examples.pi0
      = .ok (Examples.main0.1, Examples.main0.2) := by
    rw [Examples.main0_eq, Prod.mk.eta]
  have hne : ¬ (Examples.main0.2.publicMemory.filter (· ≠ (0, 0))).Perm (memory.filter (· ≠ (0, 0))) := by
    rcases hm with rfl | rfl <;> decide +kernel
  have hN : Examples.main0.2.publicMemory.length + memory.length ≤ 10 := by
    rcases hm with rfl | rfl <;> decide +kernel
  obtain ⟨L₀, h⟩ := C77_honest_memory_random_hash (env := envDrawn) (a := 3) (b := 2) (main := Examples.main0.1)
    (pi' := Examples.main0.2) (options := ProofOptions.defaultTestOptions) rfl envDrawn_challenges example_run
    Examples.pi0_eq (by norm_num) (by decide +kernel) hpc (.inl rfl) hb ho hc hmain hne rfl
    Examples.main0_length (by norm_num) (by norm_num) (by decide) three_nonsquare (by decide)
    (s := 117) (columns := 52) (N := 231) 1 (n := 100) rfl rfl rfl (by norm_num)
  refine ⟨L₀, fun L hL => le_trans ?_ (h L hL)⟩
  rw [show ProofOptions.defaultTestOptions.grindingFactor.toNat = 1 from rfl]
  have hN' : ((Examples.main0.2.publicMemory.length + memory.length : Nat) : ℚ) ≤ 10 := by exact_mod_cast hN
  have hN0 : (0 : ℚ) ≤ ((Examples.main0.2.publicMemory.length + memory.length : Nat) : ℚ) := by positivity
  generalize ((Examples.main0.2.publicMemory.length + memory.length : Nat) : ℚ) = N at hN' hN0
  have hq : (11 * 2 ^ 3 + (4 * N ^ 2 + 2 * N + 1)) / 2 ^ 251 ≤ (509 : ℚ) / 2 ^ 251 :=
    div_le_div_of_nonneg_right (by nlinarith) (by positivity)
  refine le_trans ?_ (sub_le_sub_left (add_le_add_left hq _) 1)
  norm_num

/-- The trace of `simple_program`, proved with the claim that the run ends with another `ap`: for random hash functions
the proof is accepted with probability at most `1 / 2^99`. -/
example :
    let pi := { Examples.main0.2 with apFinal := Examples.main0.2.apFinal + 1 }
    ∃ L₀, ∀ L ≥ L₀, probability ((Message L → Commitment) × (WorkMessage → Commitment)) (fun ω =>
      ∃ proof, generateCairoProof (hashing envDrawn ω.1 ω.2) ⟨Examples.main0.1.flatten, 34⟩ pi
          ProofOptions.defaultTestOptions = .ok proof ∧
        verifyCairoProof (hashing envDrawn ω.1 ω.2) proof pi ProofOptions.defaultTestOptions = .ok true)
      ≤ 1 / 2 ^ 99 := by
  intro pi
  have hrc : hasRcBuiltin pi = false := by decide +kernel
  obtain ⟨L₀, h⟩ := C79_random_hash (env := envDrawn) (pi := pi) (options := ProofOptions.defaultTestOptions) (a := 3)
    (b := 2) (main := Examples.main0.1) rfl envDrawn_challenges (by norm_num) (by norm_num) (by norm_num) rfl
    three_nonsquare (by decide) Examples.main0_length (by rw [hrc]; exact Examples.main0_width) (by decide +kernel)
    (fun ch aux haux h => by
      obtain ⟨_, _, _, _, _, A⟩ := ExecTrace.buildAuxiliaryTrace_ok haux
      have h1 := (C32_boundary_partial h).2.2.2.2
      have hi : pi.numSteps - 1 < Examples.main0.1.length := by decide +kernel
      unfold regsAt at h1
      dsimp only at h1
      rw [ExecTrace.cell_full A.len hi, ExecTrace.fullRow_main Examples.main0_width hi (by decide)] at h1
      exact absurd h1 (by decide +kernel)) (s := 117) (columns := 52) (N := 231) 1 (n := 100)
    (by rw [if_pos (by decide +kernel)]) (by rw [if_pos (by decide +kernel)]) rfl (by norm_num)
  refine ⟨L₀, fun L hL => ?_⟩
  have h := h L hL
  rw [hrc] at h
  refine le_trans h ?_
  rw [show ProofOptions.defaultTestOptions.grindingFactor.toNat = 1 from rfl]
  norm_num

end Verif.Props
