import Verif.Lemmas.Search
import Verif.Props.Grinding
import Verif.Props.CairoHonest
import Verif.Props.RandomForgery

/-!
# C87: the cost of a proof of work
-/

namespace Verif.Props
open Verif.Spec Verif.Proximity Random
open Verif.Grinding

variable {F T Ch : Type} [Field F] [DecidableEq F]

omit [DecidableEq F] in
/-- The digest the program uses for a seed and a nonce. -/
theorem working_keccak (env : Env F T) (K : WorkMessage → Commitment) (seed : Commitment) (nonce : Nat) :
    (working env K).keccak (seed.val ++ leBytes 8 nonce) = K (workMessage seed nonce) :=
  dif_pos (workMessage seed nonce).property

/-- The messages for different nonces are different. -/
theorem workMessage_injective (seed : Commitment) {i j : Nat} (hi : i < 2 ^ 64) (hj : j < 2 ^ 64)
    (h : workMessage seed i = workMessage seed j) : i = j := by
  have h1 := congrArg leNat (List.append_cancel_left (congrArg Subtype.val h))
  rw [leNat_leBytes, leNat_leBytes] at h1
  · exact h1
  all_goals norm_num
  all_goals omega

/-- A digest meets the target with probability `2^-g`, or not at all. -/
theorem probability_meets (g : Nat) :
    probability Commitment (fun d => g ≤ 64 ∧ 2 ^ g ∣ beNat (d.val.take 8)) ≤ 1 / 2 ^ g := by
  by_cases hg : g ≤ 64
  · exact (probability_mono fun d h => h.2).trans (probability_hit hg).le
  · refine (probability_mono (Q := fun _ => False) fun d h => hg h.1).trans ?_
    rw [probability_false]
    positivity

/-- **C87**: whoever asks for the digests of `N` pairs of a seed and a nonce, choosing every pair from the digests seen so
far, finds one that meets the target for the factor `g` with probability at most `N / 2^g`. -/
theorem C87_search_bound (env : Env F T) (g N : Nat) (seed : List Commitment → Commitment)
    (nonce : List Commitment → Nat) :
    probability (WorkMessage → Commitment) (fun K => ∃ i < N,
      let seen := answers K (fun seen => workMessage (seed seen) (nonce seen)) i
      MeetsTarget (working env K).keccak (seed seen) g (nonce seen)) ≤ N / 2 ^ g := by
  classical
  have := Prog.commitment_nonempty
  have h := probability_search (X := WorkMessage) (fun seen => workMessage (seed seen) (nonce seen))
    (fun _ (d : Commitment) => g ≤ 64 ∧ 2 ^ g ∣ beNat (d.val.take 8)) (fun _ => probability_meets g) N
  refine (probability_mono ?_).trans (h.trans (div_eq_mul_one_div _ _).ge)
  rintro K ⟨i, hi, h1, h2⟩
  refine ⟨i, hi, h1, ?_⟩
  rwa [working_keccak] at h2

/-- The questions of a searcher followed by one more. -/
theorem answers_extend {X D : Type} (K : X → D) (ask last : List D → X) (N : Nat) {n : Nat} (hn : n ≤ N) :
    answers K (fun seen => if seen.length < N then ask seen else last seen) n = answers K ask n ∧
      (answers K ask n).length = n := by
  induction n with
  | zero => exact ⟨rfl, rfl⟩
  | succ n ih =>
    obtain ⟨h1, h2⟩ := ih (by omega)
    refine ⟨?_, by rw [answers, List.length_append, h2]; rfl⟩
    rw [answers, answers, h1]
    simp only [h2]
    rw [if_pos (by omega)]

/-- **C87**: no accepted proof without the work. Whoever sees `N` digests of the proof of work, each for a message chosen
from the digests seen before, and then presents a claim and a proof, has it accepted with probability at most
`(N + 1) / 2^g` if the AIR asks for at least the factor `g`. -/
theorem C87_accepted_work {PI : Type} (env : Env F T) (new : AirNew F Ch PI) (options : ProofOptions) (g : Nat)
    (hg : ∀ n pi air, new n pi options = .ok air → g ≤ air.context.proofOptions.grindingFactor.toNat) (N : Nat)
    (ask : List Commitment → WorkMessage) (present : List Commitment → StarkProof F × PI) :
    probability (WorkMessage → Commitment) (fun K =>
      verify (working env K) new (present (answers K ask N)).1 (present (answers K ask N)).2 options = .ok true)
      ≤ (N + 1) / 2 ^ g := by
  classical
  have := Prog.commitment_nonempty
  obtain ⟨d0⟩ := Prog.commitment_nonempty
  let last : List Commitment → WorkMessage := fun seen =>
    match new (present seen).1.traceLength (present seen).2 options with
    | .ok air => match Domain.new env.ta air with
      | .ok d => match seedOf env air (present seen).1 d env.tr.init with
        | .ok seed => workMessage seed (present seen).1.nonce
        | _ => workMessage d0 0
      | _ => workMessage d0 0
    | _ => workMessage d0 0
  have h := probability_search (X := WorkMessage) (fun seen => if seen.length < N then ask seen else last seen)
    (fun _ (d : Commitment) => g ≤ 64 ∧ 2 ^ g ∣ beNat (d.val.take 8)) (fun _ => probability_meets g) (N + 1)
  refine (probability_mono fun K hK => ?_).trans (h.trans ?_)
  · obtain ⟨-, air, d, c, t, h1, h2, h3, h4, -⟩ := verify_true hK
    obtain ⟨seed, h5, h6⟩ := step1_seed h3
    rw [seedOf_working] at h5
    obtain ⟨e1, e2⟩ := answers_extend K ask last N le_rfl
    refine ⟨N, by omega, ?_⟩
    rw [e1]
    simp only [e2, lt_irrefl, if_false]
    have h7 : last (answers K ask N) = workMessage seed (present (answers K ask N)).1.nonce := by
      show (match new (present (answers K ask N)).1.traceLength (present (answers K ask N)).2 options with
        | .ok air => _
        | _ => _) = _
      rw [h1]
      show (match Domain.new env.ta air with
        | .ok d => _
        | _ => _) = _
      rw [show Domain.new env.ta air = .ok d from h2]
      show (match seedOf env air (present (answers K ask N)).1 d env.tr.init with
        | .ok seed => _
        | _ => _) = _
      rw [show seedOf env air (present (answers K ask N)).1 d env.tr.init = .ok seed from h5]
    rw [h7, ← working_keccak env K]
    have h8 := (hg _ _ _ h1).trans h4
    rw [h6] at h8
    exact (C52_check_iff _ _ _ _).1 h8
  · push_cast
    exact (div_eq_mul_one_div _ _).ge

omit [DecidableEq F] in
/-- The program itself is the program with its own digests of the proof of work. -/
theorem working_self (env : Env F T) : working env (fun m => env.keccak m.val) = env := by
  unfold working
  congr 1
  funext m
  by_cases h : m.length = 40
  · rw [dif_pos h]
  · rw [dif_neg h]

/-- **C87**, the Cairo AIR. -/
theorem C87_cairo (env : Env FE T) (options : ProofOptions) (N : Nat) (ask : List Commitment → WorkMessage)
    (present : List Commitment → StarkProof FE × PublicInputs) :
    probability (WorkMessage → Commitment) (fun K => CairoAir.verifyCairoProof (working env K)
      (present (answers K ask N)).1 (present (answers K ask N)).2 options = .ok true)
      ≤ (N + 1) / 2 ^ options.grindingFactor.toNat :=
  C87_accepted_work env CairoAir.new options _ (fun n pi air h => by
    obtain rfl := Outcome.ok.inj h
    exact le_rfl) N ask present

/-- Whoever asks nothing and presents the honest proof of the example run is accepted for some digests of the proof of
work, and for at most half of them, as the factor is one. -/
example : ∃ proof, (∃ K, CairoAir.verifyCairoProof (working Examples.envFar K) proof Examples.main0.2
      ProofOptions.defaultTestOptions = .ok true) ∧
    probability (WorkMessage → Commitment) (fun K => CairoAir.verifyCairoProof (working Examples.envFar K) proof
      Examples.main0.2 ProofOptions.defaultTestOptions = .ok true) ≤ 1 / 2 := by
  obtain ⟨proof, -, h⟩ := example_cairo_proof
  refine ⟨proof, ⟨fun m => Examples.envFar.keccak m.val, by rw [working_self]; exact h⟩, ?_⟩
  refine (C87_cairo Examples.envFar ProofOptions.defaultTestOptions 0 (fun _ => workMessage (constDigest 0) 0)
    fun _ => (proof, Examples.main0.2)).trans ?_
  rw [show ProofOptions.defaultTestOptions.grindingFactor.toNat = 1 from rfl]
  norm_num

/-- With the factor 20 a proof of anything is accepted after a thousand digests with probability below one in a
thousand. -/
example (env : Env FE T) (ask : List Commitment → WorkMessage)
    (present : List Commitment → StarkProof FE × PublicInputs) :
    probability (WorkMessage → Commitment) (fun K => CairoAir.verifyCairoProof (working env K)
      (present (answers K ask 1000)).1 (present (answers K ask 1000)).2 ⟨4, 80, 3, 20⟩ = .ok true) ≤ 1 / 1000 :=
  (C87_cairo env ⟨4, 80, 3, 20⟩ 1000 ask present).trans (by
    rw [show (⟨4, 80, 3, 20⟩ : ProofOptions).grindingFactor.toNat = 20 from rfl]
    norm_num)

/-- **C87**: the honest search. The first `n` nonces all miss the target with probability `(1 - 2^-g)^n`. -/
theorem C87_misses (env : Env F T) (seed : Commitment) {g n : Nat} (hg : g ≤ 64) (hn : n ≤ 2 ^ 64) :
    probability (WorkMessage → Commitment) (fun K => ∀ k < n, ¬ MeetsTarget (working env K).keccak seed g k)
      = (1 - 1 / 2 ^ g) ^ n := by
  classical
  have := Prog.commitment_nonempty
  induction n with
  | zero =>
    rw [pow_zero, probability_not]
    simp only [not_lt_zero, false_imp_iff, implies_true, not_true]
    rw [probability_false, sub_zero]
  | succ n ih =>
    have key := probability_at (workMessage seed n)
      (fun K => ∀ k < n, ¬ MeetsTarget (working env K).keccak seed g k) (fun K d => forall₂_congr fun k hk => by
        unfold MeetsTarget
        rw [working_keccak, working_keccak, Function.update_of_ne]
        intro h
        have := workMessage_injective seed (by omega) (by omega) h
        omega) (fun d : Commitment => ¬ 2 ^ g ∣ beNat (d.val.take 8))
    have hmiss : probability Commitment (fun d => ¬ 2 ^ g ∣ beNat (d.val.take 8)) = 1 - 1 / 2 ^ g := by
      have := probability_not (X := Commitment) fun d => 2 ^ g ∣ beNat (d.val.take 8)
      rw [probability_hit hg] at this
      linarith
    rw [hmiss, ih (by omega), ← pow_succ] at key
    rw [← key]
    congr 1
    funext K
    refine propext ⟨fun h => ⟨fun k hk => h k (by omega), fun hd => h n (by omega) ⟨hg, ?_⟩⟩, ?_⟩
    · rwa [working_keccak]
    · rintro ⟨h1, h2⟩ k hk ⟨-, h3⟩
      rcases Nat.lt_succ_iff_lt_or_eq.mp hk with hk | rfl
      · exact h1 k hk ⟨hg, h3⟩
      · rw [working_keccak] at h3
        exact h2 h3

/-- **C87**: the nonce of the prover is `n` with probability `(1 - 2^-g)^n * 2^-g`. -/
theorem C87_nonce_distribution (env : Env F T) (seed : Commitment) {g n : Nat} (hg : g ≤ 64) (hn : n < 2 ^ 64 - 1) :
    probability (WorkMessage → Commitment) (fun K => generateNonce (working env K).keccak seed g = some n)
      = (1 - 1 / 2 ^ g) ^ n * (1 / 2 ^ g) := by
  classical
  have := Prog.commitment_nonempty
  have key := probability_at (workMessage seed n)
    (fun K => ∀ k < n, ¬ MeetsTarget (working env K).keccak seed g k) (fun K d => forall₂_congr fun k hk => by
      unfold MeetsTarget
      rw [working_keccak, working_keccak, Function.update_of_ne]
      intro h
      have := workMessage_injective seed (by omega) (by omega) h
      omega) (fun d : Commitment => 2 ^ g ∣ beNat (d.val.take 8))
  rw [probability_hit hg, C87_misses env seed hg (by omega)] at key
  rw [← key]
  congr 1
  funext K
  refine propext ((C52_smallest_nonce_partial _ _ _ _).trans ?_)
  constructor
  · rintro ⟨-, ⟨-, h2⟩, h3⟩
    rw [working_keccak] at h2
    exact ⟨h3, h2⟩
  · rintro ⟨h1, h2⟩
    exact ⟨hn, ⟨hg, by rwa [working_keccak]⟩, h1⟩

/-- **C87**: the prover finds no nonce, and panics, with probability `(1 - 2^-g)^(2^64 - 1)`. -/
theorem C87_no_nonce (env : Env F T) (seed : Commitment) {g : Nat} (hg : g ≤ 64) :
    probability (WorkMessage → Commitment) (fun K => generateNonce (working env K).keccak seed g = none)
      = (1 - 1 / 2 ^ g) ^ (2 ^ 64 - 1) := by
  rw [← C87_misses env seed hg (Nat.sub_le _ _)]
  congr 1
  funext K
  exact propext (C52_search_fails_iff _ _ _)

/-- The candidates a search among `M` tries. -/
theorem search_count {M : Nat} {P : Nat → Prop} {o : Option Nat} [DecidablePred fun n => ∀ k < n, ¬ P k]
    (hs : ∀ nonce, o = some nonce ↔ nonce < M ∧ P nonce ∧ ∀ k < nonce, ¬ P k) (hf : o = none ↔ ∀ k < M, ¬ P k) :
    (o.map (· + 1)).getD M = ((Finset.range M).filter fun n => ∀ k < n, ¬ P k).card := by
  cases o with
  | some nonce =>
    obtain ⟨h1, h2, h3⟩ := (hs nonce).1 rfl
    show nonce + 1 = _
    rw [← Finset.card_range (nonce + 1)]
    congr 1
    ext n
    rw [Finset.mem_range, Finset.mem_filter, Finset.mem_range]
    constructor
    · exact fun hn => ⟨by omega, fun k hk => h3 k (by omega)⟩
    · rintro ⟨-, hn⟩
      by_contra hc
      exact hn nonce (by omega) h2
  | none =>
    have h := hf.1 rfl
    show M = _
    rw [Finset.filter_true_of_mem, Finset.card_range]
    intro n hn k hk
    exact h k (by have := Finset.mem_range.1 hn; omega)

/-- A candidate is tried if all before it miss the target. -/
theorem tried_eq (keccak : Bytes → Commitment) (seed : Commitment) (g : Nat) [DecidablePred fun n =>
    ∀ k < n, ¬ MeetsTarget keccak seed g k] {M : Nat} (hM : M = 2 ^ 64 - 1) :
    tried keccak seed g = ((Finset.range M).filter fun n => ∀ k < n, ¬ MeetsTarget keccak seed g k).card := by
  have hs := C52_smallest_nonce_partial keccak seed g
  have hf := C52_search_fails_iff keccak seed g
  unfold tried
  rw [← hM] at hs hf ⊢
  exact search_count hs hf

/-- The average of a count is the sum of the probabilities. -/
theorem average_count {X : Type} [Fintype X] (P : Nat → X → Prop) (f : X → Nat) (M : Nat)
    (hf : ∀ x [DecidablePred fun n => P n x], f x = ((Finset.range M).filter fun n => P n x).card) :
    (∑ x : X, (f x : ℚ)) / Fintype.card X = ∑ n ∈ Finset.range M, probability X (P n) := by
  classical
  simp only [probability_eq]
  rw [← Finset.sum_div]
  congr 1
  have h1 : ∀ x, (f x : ℚ) = ∑ n ∈ Finset.range M, if P n x then 1 else 0 := fun x => by
    rw [hf, Finset.sum_boole]
  simp only [h1]
  rw [Finset.sum_comm]
  exact Finset.sum_congr rfl fun n _ => Finset.sum_boole _ _

/-- **C87**: on average the prover tries `2^g` candidates, less the share `(1 - 2^-g)^(2^64 - 1)` of them. -/
theorem C87_average_work (env : Env F T) (seed : Commitment) {g : Nat} (hg : g ≤ 64) :
    (∑ K : WorkMessage → Commitment, (tried (working env K).keccak seed g : ℚ))
      / Fintype.card (WorkMessage → Commitment) = 2 ^ g * (1 - (1 - 1 / 2 ^ g) ^ (2 ^ 64 - 1)) := by
  obtain ⟨M, hM⟩ : ∃ M, M = 2 ^ 64 - 1 := ⟨_, rfl⟩
  rw [← hM]
  have h2 : ∀ n ∈ Finset.range M, probability (WorkMessage → Commitment) (fun K =>
      ∀ k < n, ¬ MeetsTarget (working env K).keccak seed g k) = (1 - 1 / 2 ^ g) ^ n := fun n hn =>
    C87_misses env seed hg (n := n) (by have := Finset.mem_range.1 hn; omega)
  rw [average_count (fun n K => ∀ k < n, ¬ MeetsTarget (working env K).keccak seed g k) _ M
    (fun K => tried_eq _ _ _ hM), Finset.sum_congr rfl h2]
  have hp : (2 : ℚ) ^ g ≠ 0 := by positivity
  have h3 := mul_neg_geom_sum (1 - 1 / 2 ^ g : ℚ) M
  rw [show (1 : ℚ) - (1 - 1 / 2 ^ g) = 1 / 2 ^ g by ring] at h3
  rw [← h3, ← mul_assoc, mul_one_div_cancel hp, one_mul]

/-- With the factor one, the third candidate is the first to meet the target for an eighth of the digests. -/
example (env : Env F T) (seed : Commitment) : probability (WorkMessage → Commitment) (fun K =>
    generateNonce (working env K).keccak seed 1 = some 2) = 1 / 8 := by
  rw [C87_nonce_distribution env seed (by norm_num) (by norm_num)]
  norm_num

/-- A searcher who tries one nonce after the other comes close to the bound of `C87_search_bound`: with the factor two and
two tries the probability is `7/16`, and the bound `1/2`. -/
example (env : Env F T) (seed : Commitment) : probability (WorkMessage → Commitment) (fun K =>
    ∀ k < 2, ¬ MeetsTarget (working env K).keccak seed 2 k) = 1 - 7 / 16 := by
  rw [C87_misses env seed (by norm_num) (by norm_num)]
  norm_num

end Verif.Props
