import Verif.Props.Work
import Verif.Props.Derivation
import Verif.Props.Options

/-!
# C88: what the options mean for a prover that tries again

The nonce comes after all the messages of the prover and before the positions of the queries. A prover whose messages
would be found out at some positions can therefore try one nonce after the other, or other messages, until the positions
suit it. Every such attempt costs a proof of work.
-/

namespace Verif.Props
open Verif.Spec Verif.Proximity Random
open Verif.Grinding Verif.ProofOptions

variable {F T Ch : Type} [Field F] [DecidableEq F]

omit [Field F] [DecidableEq F] in
/-- **C88**, the verifier: with the transcript in use, the digest that the nonce is tested for is that of the seed followed
by the nonce, and the positions of the queries are those of the digests that follow the seed and the nonce. So the two
are determined by the seed and the nonce. -/
theorem C88_accepted_attempt {PI : Type} {env : Env FE T} {L : Nat} {H : Message L → Commitment}
    {K : WorkMessage → Commitment} (hof : ∀ d, randomnessToField 252 d = .ok (env.ofDigest d)) {new : AirNew FE Ch PI}
    {proof : StarkProof FE} {pi : PI} {options : ProofOptions}
    (h : verify (hashing env H K) new proof pi options = .ok true) :
    ∃ air d c t seed, new proof.traceLength pi options = .ok air ∧ Domain.new env.ta air = .ok d ∧
      step1 (hashing env H K) air proof d [] = .ok (c, t) ∧
      MeetsTarget (hashing env H K).keccak seed air.context.proofOptions.grindingFactor.toNat proof.nonce ∧
      (d.ldeRootOrder < 64 → c.iotas =
        (digests (hashing env H K).tr air.context.proofOptions.friNumberOfQueries
          (seed.val ++ beBytes 8 proof.nonce)).map fun digest => (positionOf d.ldeRootOrder digest).val) := by
  obtain ⟨-, air, d, c, t, h1, h2, h3, h4, -⟩ := verify_true h
  refine ⟨air, d, c, t, ?_⟩
  have h5 := h3
  unfold step1 at h5
  simp only [Outcome.bind_eq_ok, Outcome.pure_eq, Outcome.ok.injEq, Prod.mk.injEq] at h5
  obtain ⟨root0, e1, boundary, e2, z, e3, t7, e4, io, e5, rfl, -⟩ := h5
  refine ⟨_, h1, h2, h3, (C52_check_iff _ _ _ _).1 h4, fun hn => ?_⟩
  obtain ⟨t', h6⟩ := (C85_samplers (env := hashing env H K) hof _).2.1 d.ldeRootOrder
    air.context.proofOptions.friNumberOfQueries
  have h7 : iotaMax d.ldeRootOrder = 2 ^ d.ldeRootOrder := Nat.mod_eq_of_lt (Nat.pow_lt_pow_right (by norm_num) hn)
  rw [h7] at e5
  exact congrArg Prod.fst (Outcome.ok.inj (e5.symm.trans h6))

omit [DecidableEq F] in
/-- **C88**: let the work digest and the digests for `q` positions of every seed and nonce be drawn at random. Whoever
makes `N` attempts, choosing every seed and nonce from the digests seen so far, meets the target for the factor `g` and
has all the positions miss the ones that find it out with probability at most `N / 2^g` times the probability that `q`
positions miss, if for every seed at least `r` of the `2^n` positions find it out. -/
theorem C88_attempts (env : Env F T) {n : Nat} (hn : n ≤ 64) (g q r N : Nat)
    (bad : Commitment → Finset (Fin (2 ^ n))) (hbad : ∀ seed, r ≤ (bad seed).card)
    (seed : List (Commitment × (Fin q → Commitment)) → Commitment)
    (nonce : List (Commitment × (Fin q → Commitment)) → Nat) :
    probability (WorkMessage → Commitment × (Fin q → Commitment)) (fun A => ∃ i < N,
      let seen := answers A (fun seen => workMessage (seed seen) (nonce seen)) i
      MeetsTarget (working env fun m => (A m).1).keccak (seed seen) g (nonce seen) ∧
      ∀ j, positionOf n ((A (workMessage (seed seen) (nonce seen))).2 j) ∉ bad (seed seen))
      ≤ N * (1 / 2 ^ g * (1 - r / 2 ^ n) ^ q) := by
  classical
  have := Prog.commitment_nonempty
  have hseed : ∀ m : WorkMessage, (m.val.take 32).length = 32 := fun m => by
    rw [List.length_take, m.property]
    rfl
  have hs : ∀ s k, (⟨(workMessage s k).val.take 32, hseed _⟩ : Commitment) = s := fun s k =>
    Subtype.ext (by
      show (s.val ++ leBytes 8 k).take 32 = s.val
      rw [List.take_append_of_le_length s.property.ge, List.take_of_length_le s.property.le])
  have h := probability_search (X := WorkMessage) (D := Commitment × (Fin q → Commitment))
    (fun seen => workMessage (seed seen) (nonce seen))
    (fun m d => (g ≤ 64 ∧ 2 ^ g ∣ beNat (d.1.val.take 8)) ∧
      ∀ j, positionOf n (d.2 j) ∉ bad ⟨m.val.take 32, hseed m⟩) (p := 1 / 2 ^ g * (1 - r / 2 ^ n) ^ q) (fun m => ?_) N
  · refine (probability_mono ?_).trans h
    rintro A ⟨i, hi, ⟨h1, h2⟩, h3⟩
    rw [working_keccak] at h2
    refine ⟨i, hi, ⟨h1, h2⟩, ?_⟩
    rwa [hs]
  · set B := bad ⟨m.val.take 32, hseed m⟩ with hB
    have hr : (r : ℚ) ≤ B.card := by exact_mod_cast hbad _
    have hc : (B.card : ℚ) ≤ 2 ^ n := by
      have := Finset.card_le_univ B
      rw [Fintype.card_fin] at this
      exact_mod_cast this
    have h2n : (0 : ℚ) < 2 ^ n := by positivity
    have h0 : (0 : ℚ) ≤ 1 - B.card / 2 ^ n := by
      rw [sub_nonneg, div_le_one h2n]
      exact hc
    rw [probability_prod]
    have e : ∀ d : Commitment, probability (Fin q → Commitment)
        (fun y => (g ≤ 64 ∧ 2 ^ g ∣ beNat (d.val.take 8)) ∧ ∀ j, positionOf n (y j) ∉ B) =
        (if g ≤ 64 ∧ 2 ^ g ∣ beNat (d.val.take 8) then 1 else 0) * (1 - B.card / 2 ^ n) ^ q := by
      intro d
      split
      next hd => simp only [hd, true_and, one_mul, and_self]; exact C85_queries_miss hn B q
      next hd => simp only [hd, false_and, zero_mul]; exact probability_false
    simp only [e]
    rw [← Finset.sum_mul, Finset.sum_boole, mul_div_right_comm]
    have hm := probability_meets g
    rw [probability_eq] at hm
    refine mul_le_mul hm (pow_le_pow_left₀ h0 ?_ q) (pow_nonneg h0 q) (by positivity)
    gcongr

omit [DecidableEq F] in
/-- **C88**, what the constructor checks: for options that `new_with_checked_security` accepts for a security target, if
all but a part `1 / blowup` of the positions find a false claim out, then no `N` attempts succeed with a probability above
`N / 2^target`, and not even above a quarter of it. -/
theorem C88_checked_security (env : Env F T) {n : Nat} (hn : n ≤ 64) {mode : BuildMode} {fieldBits b : Nat}
    {blowup : UInt8} {q off : Nat} {g target : UInt8} {o : ProofOptions} (hb : blowup.toNat = 2 ^ b) (hq : q < 2 ^ 56)
    (h1 : 1 ≤ g.toNat + b * q) (ho : newWithCheckedSecurity mode fieldBits blowup q off g target = .ok o) {r : Nat}
    (hr : 1 - (r : ℚ) / 2 ^ n ≤ 1 / o.blowupFactor.toNat) (N : Nat)
    (bad : Commitment → Finset (Fin (2 ^ n))) (hbad : ∀ seed, r ≤ (bad seed).card)
    (seed : List (Commitment × (Fin o.friNumberOfQueries → Commitment)) → Commitment)
    (nonce : List (Commitment × (Fin o.friNumberOfQueries → Commitment)) → Nat) :
    probability (WorkMessage → Commitment × (Fin o.friNumberOfQueries → Commitment)) (fun A => ∃ i < N,
      let seen := answers A (fun seen => workMessage (seed seen) (nonce seen)) i
      MeetsTarget (working env fun m => (A m).1).keccak (seed seen) o.grindingFactor.toNat (nonce seen) ∧
      ∀ j, positionOf n ((A (workMessage (seed seen) (nonce seen))).2 j) ∉ bad (seed seen))
      ≤ N / 2 ^ target.toNat / 4 := by
  rw [C53_conjectured_exact mode fieldBits b blowup q off g target hb hq h1] at ho
  split at ho
  · cases ho
  split at ho
  next ht =>
    obtain rfl := Outcome.ok.inj ho
    refine (C88_attempts env hn g.toNat q r N bad hbad seed nonce).trans ?_
    rw [show ((⟨blowup, q, off, g⟩ : ProofOptions).blowupFactor.toNat : ℚ) = 2 ^ b by
      show (blowup.toNat : ℚ) = _
      rw [hb]
      push_cast
      rfl] at hr
    have hc : (r : ℚ) ≤ 2 ^ n := by
      obtain ⟨d0⟩ := Prog.commitment_nonempty
      have h3 := (hbad d0).trans (Finset.card_le_univ _)
      rw [Fintype.card_fin] at h3
      exact_mod_cast h3
    have h0 : (0 : ℚ) ≤ 1 - r / 2 ^ n := by
      rw [sub_nonneg, div_le_one (by positivity)]
      exact hc
    have hp : (1 - (r : ℚ) / 2 ^ n) ^ q ≤ (1 / 2 ^ b) ^ q := pow_le_pow_left₀ h0 hr q
    have hle : (1 : ℚ) / 2 ^ g.toNat * (1 - r / 2 ^ n) ^ q ≤ 1 / 2 ^ (target.toNat + 2) := by
      calc (1 : ℚ) / 2 ^ g.toNat * (1 - r / 2 ^ n) ^ q ≤ 1 / 2 ^ g.toNat * (1 / 2 ^ b) ^ q := by gcongr
        _ = 1 / 2 ^ (g.toNat + b * q) := by
          rw [one_div_pow, ← pow_mul, pow_add]
          field_simp
        _ ≤ 1 / 2 ^ (target.toNat + 2) := by
          have h4 : target.toNat + 2 ≤ g.toNat + b * q := by omega
          gcongr
          norm_num
    calc (N : ℚ) * (1 / 2 ^ g.toNat * (1 - r / 2 ^ n) ^ q) ≤ N * (1 / 2 ^ (target.toNat + 2)) := by gcongr
      _ = N / 2 ^ target.toNat / 4 := by
        rw [pow_add]
        field_simp
        norm_num
  · cases ho

omit [DecidableEq F] in
/-- **C88**, the levels of `new_secure` for provable security: if the square of the part of the positions that do not
find a false claim out is at most `1 / blowup`, then no `N` attempts succeed with a probability above `N / 2^bits`. -/
theorem C88_provable_presets (env : Env F T) {n : Nat} (hn : n ≤ 64) (off : Nat) {level : SecurityLevel} {bits : Nat}
    (hl : (level, bits) ∈ [(SecurityLevel.provable80Bits, 80), (.provable100Bits, 100), (.provable128Bits, 128)]) {r : Nat}
    (hr : (1 - (r : ℚ) / 2 ^ n) ^ 2 ≤ 1 / (newSecure level off).blowupFactor.toNat) (N : Nat)
    (bad : Commitment → Finset (Fin (2 ^ n))) (hbad : ∀ seed, r ≤ (bad seed).card)
    (seed : List (Commitment × (Fin (newSecure level off).friNumberOfQueries → Commitment)) → Commitment)
    (nonce : List (Commitment × (Fin (newSecure level off).friNumberOfQueries → Commitment)) → Nat) :
    probability (WorkMessage → Commitment × (Fin (newSecure level off).friNumberOfQueries → Commitment)) (fun A => ∃ i < N,
      let seen := answers A (fun seen => workMessage (seed seen) (nonce seen)) i
      MeetsTarget (working env fun m => (A m).1).keccak (seed seen) (newSecure level off).grindingFactor.toNat
        (nonce seen) ∧
      ∀ j, positionOf n ((A (workMessage (seed seen) (nonce seen))).2 j) ∉ bad (seed seen))
      ≤ N / 2 ^ bits := by
  refine (C88_attempts env hn _ _ r N bad hbad seed nonce).trans ?_
  refine le_of_le_of_eq ?_ (div_eq_mul_one_div _ _).symm
  refine mul_le_mul_of_nonneg_left ?_ (Nat.cast_nonneg N)
  have key : ∀ k : Nat, (1 - (r : ℚ) / 2 ^ n) ^ 2 ≤ 1 / 4 → bits ≤ 20 + 2 * k →
      (1 : ℚ) / 2 ^ 20 * (1 - r / 2 ^ n) ^ (2 * k) ≤ 1 / 2 ^ bits := by
    intro k h4 hk
    rw [pow_mul]
    calc (1 : ℚ) / 2 ^ 20 * ((1 - r / 2 ^ n) ^ 2) ^ k ≤ 1 / 2 ^ 20 * (1 / 4) ^ k := by
          gcongr
      _ = 1 / 2 ^ (20 + 2 * k) := by
          rw [pow_add, pow_mul, one_div_pow, show (2 : ℚ) ^ 2 = 4 by norm_num, one_div_mul_one_div]
      _ ≤ 1 / 2 ^ bits := by
          gcongr
          norm_num
  have h4 : ∀ level, (newSecure level off).blowupFactor = 4 := by rintro ⟨⟩ <;> rfl
  rw [h4] at hr
  have hr' : (1 - (r : ℚ) / 2 ^ n) ^ 2 ≤ 1 / 4 := hr
  simp only [List.mem_cons, Prod.mk.injEq, List.not_mem_nil, or_false] at hl
  rcases hl with ⟨rfl, rfl⟩ | ⟨rfl, rfl⟩ | ⟨rfl, rfl⟩
  · rw [show (newSecure .provable80Bits off).grindingFactor.toNat = 20 from rfl,
      show (newSecure .provable80Bits off).friNumberOfQueries = 2 * 40 from rfl]
    exact key 40 hr' (by norm_num)
  · rw [show (newSecure .provable100Bits off).grindingFactor.toNat = 20 from rfl,
      show (newSecure .provable100Bits off).friNumberOfQueries = 2 * 52 from rfl]
    exact key 52 hr' (by norm_num)
  · rw [show (newSecure .provable128Bits off).grindingFactor.toNat = 20 from rfl,
      show (newSecure .provable128Bits off).friNumberOfQueries = 2 * 70 from rfl]
    exact key 70 hr' (by norm_num)

/-- One of `M` answers has a property that depends on the other draws. -/
theorem probability_some_answer {X D : Type} [Fintype X] [Fintype D] [Nonempty X] [Nonempty D] (B : X → D → Prop)
    (M : Nat) :
    probability (X × (Fin M → D)) (fun ω => ∃ j, B ω.1 (ω.2 j)) ≤ M * probability (X × D) fun ω => B ω.1 ω.2 := by
  classical
  rw [probability_prod, probability_prod, mul_div_assoc', Finset.mul_sum]
  have hX : (0 : ℚ) < Fintype.card X := by exact_mod_cast Fintype.card_pos
  refine div_le_div_of_nonneg_right (Finset.sum_le_sum fun x _ => ?_) hX.le
  have h1 := probability_not (X := Fin M → D) fun y => ∀ j, ¬ B x (y j)
  rw [probability_all M fun d => ¬ B x d, probability_not] at h1
  have h2 : (fun y : Fin M → D => ∃ j, B x (y j)) = fun y => ¬ ∀ j, ¬ B x (y j) := by
    funext y
    simp
  show probability (Fin M → D) (fun y => ∃ j, B x (y j)) ≤ _
  rw [h2]
  simp only [not_not] at h1
  have h3 := probability_le_one (X := D) (B x)
  have h4 := one_add_mul_le_pow (R := ℚ) (a := - probability D (B x)) (by linarith) M
  rw [← sub_eq_add_neg] at h4
  linarith

/-- The digests for the positions are drawn after the others. -/
theorem probability_withPositions {e nb nt k a q r : Nat} (E : DigestDraws e nb nt k a q r → Prop) :
    probability (DigestDraws e nb nt k a 0 r × (Fin q → Commitment)) (fun ω => E (withPositions ω.1 ω.2))
      = probability (DigestDraws e nb nt k a q r) E := by
  refine probability_equiv (X := DigestDraws e nb nt k a 0 r × (Fin q → Commitment)) ⟨fun ω => withPositions ω.1 ω.2,
    fun x => ((x.1, x.2.1, x.2.2.1, x.2.2.2.1, x.2.2.2.2.1, x.2.2.2.2.2.1, x.2.2.2.2.2.2.1, x.2.2.2.2.2.2.2.1,
      x.2.2.2.2.2.2.2.2.1, x.2.2.2.2.2.2.2.2.2.1, Fin.elim0), x.2.2.2.2.2.2.2.2.2.2), ?_, ?_⟩ E
  · rintro ⟨⟨ε, αB, βB, αT, βT, points, γe, γo, γ, ζ, ι⟩, p⟩
    simp only [withPositions, Prod.mk.injEq, true_and, and_true]
    exact Subsingleton.elim _ _
  · rintro ⟨ε, αB, βB, αT, βT, points, γe, γo, γ, ζ, ι⟩
    rfl

/-- **C88**, the choice of the nonce: whatever is an event of the digests of one run, it has at most `M / 2^g` times its
probability when the prover may pick, after all its messages, the best of `M` nonces among those that meet the target for
the factor `g`. -/
theorem C88_choose_nonce {e nb nt k a q r : Nat} (g M : Nat) (E : DigestDraws e nb nt k a q r → Prop) :
    probability (DigestDraws e nb nt k a 0 r × (Fin M → Commitment × (Fin q → Commitment))) (fun ω => ∃ j,
      (g ≤ 64 ∧ 2 ^ g ∣ beNat ((ω.2 j).1.val.take 8)) ∧ E (withPositions ω.1 (ω.2 j).2))
      ≤ M / 2 ^ g * probability (DigestDraws e nb nt k a q r) E := by
  classical
  have := Prog.commitment_nonempty
  refine (probability_some_answer (X := DigestDraws e nb nt k a 0 r) (D := Commitment × (Fin q → Commitment))
    (fun x y => (g ≤ 64 ∧ 2 ^ g ∣ beNat (y.1.val.take 8)) ∧ E (withPositions x y.2)) M).trans ?_
  rw [div_eq_mul_one_div, mul_assoc]
  refine mul_le_mul_of_nonneg_left ?_ (Nat.cast_nonneg M)
  let f : DigestDraws e nb nt k a 0 r × (Commitment × (Fin q → Commitment)) ≃
      Commitment × (DigestDraws e nb nt k a 0 r × (Fin q → Commitment)) :=
    ⟨fun x => (x.2.1, x.1, x.2.2), fun y => (y.2.1, y.1, y.2.2), fun _ => rfl, fun _ => rfl⟩
  have h := probability_and_le (X := Commitment) (Y := DigestDraws e nb nt k a 0 r × (Fin q → Commitment))
    (Q := fun ω => E (withPositions ω.1 ω.2)) (probability_nonneg _) (probability_meets g) le_rfl
  rw [probability_withPositions] at h
  refine le_trans (le_of_eq ?_) h
  exact probability_equiv f fun y => (g ≤ 64 ∧ 2 ^ g ∣ beNat (y.1.val.take 8)) ∧ E (withPositions y.2.1 y.2.2)

section cairo
open CairoAir

/-- **C88**, the Cairo AIR: the bound of C85 with the proof of work. The prover may pick, after all its messages, the best
of `M` nonces; those that do not meet the target are worth nothing. -/
theorem C88_cairo {ta : TwoAdic FE} {opts : ProofOptions} {a b : Nat} {d : Domain FE} {w : FE} {R m : Nat}
    (ha : 1 ≤ a) (hb : 1 ≤ b) {pi : PublicInputs} (hsteps : pi.numSteps ≤ 2 ^ a)
    (hblow : opts.blowupFactor.toNat = 2 ^ b) (hoff : (opts.cosetOffset : FE) ≠ 0)
    (hd : Domain.new ta (CairoAir.air (2 ^ a) pi opts) = .ok d) (hw : ta.root (a + b) = some w)
    (hR : DecodingRadius a b R m) (main : List (Nat → FE))
    (hmain : main.length = traceColumns (hasRcBuiltin pi) - 18)
    (hno : ¬ DecodesTo d w opts.cosetOffset a b R main (SelectedRun pi))
    (aux : List FE → List (Nat → FE)) (haux : ∀ e, (aux e).length = 18) (P : List FE → StarkStrategy FE) (r M : Nat) :
    probability (DigestDraws 3 8 (numTransitionConstraints (hasRcBuiltin pi))
          (traceColumns (hasRcBuiltin pi) * 2) a 0 r × (Fin M → Commitment × (Fin opts.friNumberOfQueries → Commitment)))
        (fun ω => ∃ j, (opts.grindingFactor.toNat ≤ 64 ∧
            2 ^ opts.grindingFactor.toNat ∣ beNat ((ω.2 j).1.val.take 8)) ∧
          ∃ e draws, derived (d.ldeRootsOfUnityCoset ++ d.traceRootsOfUnity) (a + b)
              (withPositions ω.1 (ω.2 j).2) = some (e, draws) ∧
            (P (List.ofFn e)).Wins (CairoAir.air (2 ^ a) pi opts) d a b w ⟨e 0, e 1, e 2⟩ (main ++ aux (List.ofFn e))
              draws)
      ≤ M / 2 ^ opts.grindingFactor.toNat * ((1 + 1 / 2 ^ 40) * soundnessError Verif.P 8
          (numTransitionConstraints (hasRcBuiltin pi)) (traceColumns (hasRcBuiltin pi)) 2 a b R m
          opts.friNumberOfQueries) := by
  have h := C85_cairo ha hb hsteps hblow hoff hd hw hR main hmain hno aux haux P opts.friNumberOfQueries r
  revert h
  generalize (1 + 1 / 2 ^ 40 : ℚ) * soundnessError Verif.P 8 (numTransitionConstraints (hasRcBuiltin pi))
    (traceColumns (hasRcBuiltin pi)) 2 a b R m opts.friNumberOfQueries = B
  intro h
  refine (C88_choose_nonce opts.grindingFactor.toNat M fun ω => ∃ e draws,
    derived (d.ldeRootsOfUnityCoset ++ d.traceRootsOfUnity) (a + b) ω = some (e, draws) ∧
      (P (List.ofFn e)).Wins (CairoAir.air (2 ^ a) pi opts) d a b w ⟨e 0, e 1, e 2⟩ (main ++ aux (List.ofFn e))
        draws).trans ?_
  exact mul_le_mul_of_nonneg_left h (by positivity)

/-- The bound for a level of `new_secure`, from what the queries miss. -/
theorem cairo_level {ta : TwoAdic FE} {level : SecurityLevel} {bits off R m : Nat} {x : ℚ}
    {a : Nat} {d : Domain FE} {w : FE} (ha : 1 ≤ a) (ha' : a ≤ 40) {pi : PublicInputs} (hsteps : pi.numSteps ≤ 2 ^ a)
    (hoff : (off : FE) ≠ 0) (hd : Domain.new ta (CairoAir.air (2 ^ a) pi (newSecure level off)) = .ok d)
    (hw : ta.root (a + 2) = some w) (main : List (Nat → FE))
    (hmain : main.length = traceColumns (hasRcBuiltin pi) - 18)
    (hno : ¬ DecodesTo d w off a 2 R main (SelectedRun pi)) (hR : DecodingRadius a 2 R m) (hm : m ≤ 2 ^ 51)
    (hx : 1 - ((R : ℚ) + 1) / 2 ^ (a + 2) = x)
    (hbits : (1 / 2 ^ 20 * ((1 + 1 / 2 ^ 40) * (1 / 2 ^ 190 + x ^ (newSecure level off).friNumberOfQueries)) : ℚ)
      ≤ 1 / 2 ^ bits)
    (aux : List FE → List (Nat → FE)) (haux : ∀ e, (aux e).length = 18) (P : List FE → StarkStrategy FE) (r M : Nat) :
    probability (DigestDraws 3 8 (numTransitionConstraints (hasRcBuiltin pi)) (traceColumns (hasRcBuiltin pi) * 2) a 0 r
          × (Fin M → Commitment × (Fin (newSecure level off).friNumberOfQueries → Commitment)))
        (fun ω => ∃ j, 2 ^ 20 ∣ beNat ((ω.2 j).1.val.take 8) ∧
          ∃ e draws, derived (d.ldeRootsOfUnityCoset ++ d.traceRootsOfUnity) (a + 2)
              (withPositions ω.1 (ω.2 j).2) = some (e, draws) ∧
            (P (List.ofFn e)).Wins (CairoAir.air (2 ^ a) pi (newSecure level off)) d a 2 w ⟨e 0, e 1, e 2⟩
              (main ++ aux (List.ofFn e)) draws)
      ≤ M / 2 ^ bits := by
  have hblow : (newSecure level off).blowupFactor.toNat = 2 ^ 2 := by cases level <;> rfl
  have hgrind : (newSecure level off).grindingFactor.toNat = 20 := by cases level <;> rfl
  have hcos : (newSecure level off).cosetOffset = off := by cases level <;> rfl
  have h := C88_cairo ha (b := 2) (by norm_num) hsteps hblow (by rw [hcos]; exact hoff) hd hw
    hR main hmain (by rw [hcos]; exact hno) aux haux P r M
  rw [hgrind] at h
  refine (probability_mono ?_).trans (h.trans ?_)
  · rintro ω ⟨j, h1, h2⟩
    exact ⟨j, ⟨by norm_num, h1⟩, h2⟩
  have herr : soundnessError Verif.P 8 (numTransitionConstraints (hasRcBuiltin pi)) (traceColumns (hasRcBuiltin pi)) 2
      a 2 R m (newSecure level off).friNumberOfQueries ≤
      1 / 2 ^ 190 + x ^ (newSecure level off).friNumberOfQueries := by
    unfold soundnessError
    rw [hx]
    refine add_le_add ?_ le_rfl
    have h5 : numTransitionConstraints (hasRcBuiltin pi) ≤ 50 ∧ traceColumns (hasRcBuiltin pi) ≤ 61 := by
      cases hasRcBuiltin pi <;> decide
    have h6 : (numTransitionConstraints (hasRcBuiltin pi) : ℚ) ≤ 50 := by exact_mod_cast h5.1
    have h7 : (traceColumns (hasRcBuiltin pi) : ℚ) ≤ 61 := by exact_mod_cast h5.2
    have h8 : (a : ℚ) ≤ 40 := by exact_mod_cast ha'
    have h9 : (2 : ℚ) ^ a ≤ 2 ^ 40 := pow_le_pow_right₀ (by norm_num) ha'
    have h10 : (m : ℚ) ≤ 2 ^ 51 := by exact_mod_cast hm
    have hP : (2 : ℚ) ^ 251 ≤ Verif.P := by
      rw [P_eq]
      norm_num
    rw [div_le_iff₀ (lt_of_lt_of_le (by norm_num) hP)]
    have h11 : (2 + (traceColumns (hasRcBuiltin pi) : ℚ) * (2 : Nat) + a) * m ≤ 164 * 2 ^ 51 := by
      push_cast
      refine mul_le_mul (by linarith) h10 (by positivity) (by norm_num)
    have h12 : (1 : ℚ) / 2 ^ 190 * 2 ^ 251 ≤ 1 / 2 ^ 190 * Verif.P := mul_le_mul_of_nonneg_left hP (by positivity)
    have h13 : (2 : ℚ) ^ (a + 2) = 4 * 2 ^ a := by
      rw [pow_add]
      ring
    rw [h13]
    norm_num at h11 h12 h9 ⊢
    linarith
  have hM : (0 : ℚ) ≤ M := Nat.cast_nonneg M
  revert herr hbits
  generalize soundnessError Verif.P 8 (numTransitionConstraints (hasRcBuiltin pi)) (traceColumns (hasRcBuiltin pi)) 2
    a 2 R m (newSecure level off).friNumberOfQueries = z
  generalize (1 / 2 ^ 190 + x ^ (newSecure level off).friNumberOfQueries : ℚ) = y
  intro hle herr
  refine (mul_le_mul_of_nonneg_left (mul_le_mul_of_nonneg_left herr (by positivity)) (by positivity)).trans ?_
  have h14 := mul_le_mul_of_nonneg_left hle hM
  rw [mul_one_div] at h14
  refine le_trans (le_of_eq ?_) h14
  ring

/-- **C88**, the levels of `new_secure`: what the bound gives for them, for at most `2^40` rows and columns decoded up to
a quarter of the points. -/
theorem C88_cairo_levels {ta : TwoAdic FE} {level : SecurityLevel} {bits off : Nat}
    (hl : (level, bits) ∈ [(SecurityLevel.conjecturable80Bits, 32), (.conjecturable100Bits, 37),
      (.conjecturable128Bits, 42), (.provable80Bits, 53), (.provable100Bits, 63), (.provable128Bits, 78)])
    {a : Nat} {d : Domain FE} {w : FE} (ha : 1 ≤ a) (ha' : a ≤ 40) {pi : PublicInputs} (hsteps : pi.numSteps ≤ 2 ^ a)
    (hoff : (off : FE) ≠ 0) (hd : Domain.new ta (CairoAir.air (2 ^ a) pi (newSecure level off)) = .ok d)
    (hw : ta.root (a + 2) = some w) (main : List (Nat → FE))
    (hmain : main.length = traceColumns (hasRcBuiltin pi) - 18)
    (hno : ¬ DecodesTo d w off a 2 (2 ^ a - 1) main (SelectedRun pi))
    (aux : List FE → List (Nat → FE)) (haux : ∀ e, (aux e).length = 18) (P : List FE → StarkStrategy FE) (r M : Nat) :
    probability (DigestDraws 3 8 (numTransitionConstraints (hasRcBuiltin pi)) (traceColumns (hasRcBuiltin pi) * 2) a 0 r
          × (Fin M → Commitment × (Fin (newSecure level off).friNumberOfQueries → Commitment)))
        (fun ω => ∃ j, 2 ^ 20 ∣ beNat ((ω.2 j).1.val.take 8) ∧
          ∃ e draws, derived (d.ldeRootsOfUnityCoset ++ d.traceRootsOfUnity) (a + 2)
              (withPositions ω.1 (ω.2 j).2) = some (e, draws) ∧
            (P (List.ofFn e)).Wins (CairoAir.air (2 ^ a) pi (newSecure level off)) d a 2 w ⟨e 0, e 1, e 2⟩
              (main ++ aux (List.ofFn e)) draws)
      ≤ M / 2 ^ bits := by
  have hpos : 0 < 2 ^ a := by positivity
  have e1 : (1 - (((2 ^ a - 1 : Nat) : ℚ) + 1) / 2 ^ (a + 2)) = 3 / 4 := by
    rw [Nat.cast_sub hpos, pow_add]
    push_cast
    field_simp
    ring
  have e2 : 2 ^ a - 1 + 1 ≤ 2 ^ 51 := by
    have := Nat.pow_le_pow_right (n := 2) (by norm_num) ha'
    omega
  refine cairo_level ha ha' hsteps hoff hd hw main hmain hno (radius_third (by rw [pow_add]; omega)) e2 e1 ?_ aux haux P r M
  simp only [List.mem_cons, Prod.mk.injEq, List.not_mem_nil, or_false] at hl
  rcases hl with ⟨rfl, rfl⟩ | ⟨rfl, rfl⟩ | ⟨rfl, rfl⟩ | ⟨rfl, rfl⟩ | ⟨rfl, rfl⟩ | ⟨rfl, rfl⟩
  · rw [show (newSecure .conjecturable80Bits off).friNumberOfQueries = 31 from rfl]; norm_num
  · rw [show (newSecure .conjecturable100Bits off).friNumberOfQueries = 41 from rfl]; norm_num
  · rw [show (newSecure .conjecturable128Bits off).friNumberOfQueries = 55 from rfl]; norm_num
  · rw [show (newSecure .provable80Bits off).friNumberOfQueries = 80 from rfl]; norm_num
  · rw [show (newSecure .provable100Bits off).friNumberOfQueries = 104 from rfl]; norm_num
  · rw [show (newSecure .provable128Bits off).friNumberOfQueries = 140 from rfl]; norm_num

/-- With four times as many points as rows, columns are decoded up to the part `189 / 512` of the points. -/
theorem radius_cube (c : Nat) : DecodingRadius (c + 7) 2 (189 * 2 ^ c - 1) (2 ^ (c + 18)) := by
  have hpos : 0 < 2 ^ c := by positivity
  have e1 : 2 ^ (c + 7 + 2) = 512 * 2 ^ c := by rw [show c + 7 + 2 = c + 9 by rfl, pow_add]; ring
  have e2 : 2 ^ (c + 7) = 128 * 2 ^ c := by rw [pow_add]; ring
  have e3 : 2 ^ (c + 18) = 2 ^ 18 * 2 ^ c := by rw [pow_add]; ring
  refine ⟨by rw [e1, e2]; omega, Or.inr ?_⟩
  rw [e1, e2, e3]
  generalize 2 ^ c = t at hpos
  obtain ⟨u, rfl⟩ : ∃ u, t = u + 1 := ⟨t - 1, by omega⟩
  rw [show 189 * (u + 1) - 1 + 2 = 189 * (u + 1) + 1 by omega,
    show 512 * (u + 1) - (189 * (u + 1) - 1) = 323 * (u + 1) + 1 by omega]
  nlinarith [Nat.zero_le (u ^ 4), Nat.zero_le (u ^ 3), Nat.zero_le (u ^ 2), Nat.zero_le u]

/-- **C88**, the levels of `new_secure`, for `2^7` to `2^40` rows and columns decoded up to the part `189 / 512` of the
points. -/
theorem C88_cairo_levels_long {ta : TwoAdic FE} {level : SecurityLevel} {bits off : Nat}
    (hl : (level, bits) ∈ [(SecurityLevel.conjecturable80Bits, 40), (.conjecturable100Bits, 47),
      (.conjecturable128Bits, 56), (.provable80Bits, 73), (.provable100Bits, 89), (.provable128Bits, 113)])
    {a : Nat} {d : Domain FE} {w : FE} (ha : 7 ≤ a) (ha' : a ≤ 40) {pi : PublicInputs} (hsteps : pi.numSteps ≤ 2 ^ a)
    (hoff : (off : FE) ≠ 0) (hd : Domain.new ta (CairoAir.air (2 ^ a) pi (newSecure level off)) = .ok d)
    (hw : ta.root (a + 2) = some w) (main : List (Nat → FE))
    (hmain : main.length = traceColumns (hasRcBuiltin pi) - 18)
    (hno : ¬ DecodesTo d w off a 2 (189 * 2 ^ (a - 7) - 1) main (SelectedRun pi))
    (aux : List FE → List (Nat → FE)) (haux : ∀ e, (aux e).length = 18) (P : List FE → StarkStrategy FE) (r M : Nat) :
    probability (DigestDraws 3 8 (numTransitionConstraints (hasRcBuiltin pi)) (traceColumns (hasRcBuiltin pi) * 2) a 0 r
          × (Fin M → Commitment × (Fin (newSecure level off).friNumberOfQueries → Commitment)))
        (fun ω => ∃ j, 2 ^ 20 ∣ beNat ((ω.2 j).1.val.take 8) ∧
          ∃ e draws, derived (d.ldeRootsOfUnityCoset ++ d.traceRootsOfUnity) (a + 2)
              (withPositions ω.1 (ω.2 j).2) = some (e, draws) ∧
            (P (List.ofFn e)).Wins (CairoAir.air (2 ^ a) pi (newSecure level off)) d a 2 w ⟨e 0, e 1, e 2⟩
              (main ++ aux (List.ofFn e)) draws)
      ≤ M / 2 ^ bits := by
  obtain ⟨c, rfl⟩ : ∃ c, a = c + 7 := ⟨a - 7, by omega⟩
  rw [Nat.add_sub_cancel] at hno
  have hpos : 0 < 2 ^ c := by positivity
  have e1 : (1 - (((189 * 2 ^ c - 1 : Nat) : ℚ) + 1) / 2 ^ (c + 7 + 2)) = 323 / 512 := by
    rw [Nat.cast_sub (by omega), show c + 7 + 2 = c + 9 by rfl, pow_add]
    push_cast
    field_simp
    ring
  have e2 : 2 ^ (c + 18) ≤ 2 ^ 51 := Nat.pow_le_pow_right (by norm_num) (by omega)
  refine cairo_level (by omega) ha' hsteps hoff hd hw main hmain hno (radius_cube c) e2 e1 ?_ aux haux P r M
  simp only [List.mem_cons, Prod.mk.injEq, List.not_mem_nil, or_false] at hl
  rcases hl with ⟨rfl, rfl⟩ | ⟨rfl, rfl⟩ | ⟨rfl, rfl⟩ | ⟨rfl, rfl⟩ | ⟨rfl, rfl⟩ | ⟨rfl, rfl⟩
  · rw [show (newSecure .conjecturable80Bits off).friNumberOfQueries = 31 from rfl]; norm_num
  · rw [show (newSecure .conjecturable100Bits off).friNumberOfQueries = 41 from rfl]; norm_num
  · rw [show (newSecure .conjecturable128Bits off).friNumberOfQueries = 55 from rfl]; norm_num
  · rw [show (newSecure .provable80Bits off).friNumberOfQueries = 80 from rfl]; norm_num
  · rw [show (newSecure .provable100Bits off).friNumberOfQueries = 104 from rfl]; norm_num
  · rw [show (newSecure .provable128Bits off).friNumberOfQueries = 140 from rfl]; norm_num

end cairo

/-- The hypotheses of `C88_cairo_levels` are met by the claim of the example run, with eight rows and columns of
zeros. -/
example : ∃ (d : Domain FE) (w : FE), starkRoots.root (3 + 2) = some w ∧
    Domain.new starkRoots (CairoAir.air (2 ^ 3) Examples.main0.2 (newSecure .provable80Bits 3)) = .ok d ∧
    Examples.main0.2.numSteps ≤ 2 ^ 3 ∧
    (List.replicate 34 fun _ : Nat => (0 : FE)).length
      = CairoAir.traceColumns (CairoAir.hasRcBuiltin Examples.main0.2) - 18 ∧
    ¬ DecodesTo d w ((3 : Nat) : FE) 3 2 (2 ^ 3 - 1) (List.replicate 34 fun _ => 0) (SelectedRun Examples.main0.2) := by
  obtain ⟨w, hw⟩ := Option.isSome_iff_exists.mp (starkRoots.defined (3 + 2) (by norm_num) (by decide))
  obtain ⟨d, hd⟩ := domain_exists (ta := starkRoots)
    (air := CairoAir.air (2 ^ 3) Examples.main0.2 (newSecure .provable80Bits 3)) (a := 3) (b := 2) (by norm_num) rfl rfl
    (by norm_num) (by decide)
  refine ⟨d, w, hw, hd, by decide +kernel, by decide +kernel, ?_⟩
  refine zeros_not_decode (air := CairoAir.air (2 ^ 3) Examples.main0.2 (newSecure .provable80Bits 3)) (a := 3) (b := 2)
    (by norm_num) rfl rfl (by change ((3 : Nat) : FE) ≠ 0; decide +kernel) hd hw (by norm_num) 34 ?_
  intro h
  have h1 := h.first.1
  have h2 : Examples.main0.2.pcInit = 1 := by decide +kernel
  rw [h2] at h1
  exact absurd h1 (by decide +kernel)

/-- The hypotheses of `C88_cairo_levels_long` are met by the claim of the example run, with 128 rows and columns of
zeros. -/
example : ∃ (d : Domain FE) (w : FE), starkRoots.root (7 + 2) = some w ∧
    Domain.new starkRoots (CairoAir.air (2 ^ 7) Examples.main0.2 (newSecure .provable80Bits 3)) = .ok d ∧
    Examples.main0.2.numSteps ≤ 2 ^ 7 ∧
    (List.replicate 34 fun _ : Nat => (0 : FE)).length
      = CairoAir.traceColumns (CairoAir.hasRcBuiltin Examples.main0.2) - 18 ∧
    ¬ DecodesTo d w ((3 : Nat) : FE) 7 2 (189 * 2 ^ (7 - 7) - 1) (List.replicate 34 fun _ => 0) (SelectedRun Examples.main0.2) := by
  obtain ⟨w, hw⟩ := Option.isSome_iff_exists.mp (starkRoots.defined (7 + 2) (by norm_num) (by decide))
  obtain ⟨d, hd⟩ := domain_exists (ta := starkRoots)
    (air := CairoAir.air (2 ^ 7) Examples.main0.2 (newSecure .provable80Bits 3)) (a := 7) (b := 2) (by norm_num) rfl rfl
    (by norm_num) (by decide)
  refine ⟨d, w, hw, hd, by decide +kernel, by decide +kernel, ?_⟩
  refine zeros_not_decode (air := CairoAir.air (2 ^ 7) Examples.main0.2 (newSecure .provable80Bits 3)) (a := 7) (b := 2)
    (by norm_num) rfl rfl (by change ((3 : Nat) : FE) ≠ 0; decide +kernel) hd hw (by norm_num) 34 ?_
  intro h
  have h1 := h.first.1
  have h2 : Examples.main0.2.pcInit = 1 := by decide +kernel
  rw [h2] at h1
  exact absurd h1 (by decide +kernel)

/-- With random hash functions, a proof of the example's statement is accepted for some, as C88 asks. -/
example : ∃ L, ∃ (H : Message L → Commitment) (K : WorkMessage → Commitment) (proof : StarkProof FE),
    verify (hashing envDrawn H K) CairoAir.new proof falseStatement defaultTestOptions = .ok true := by
  obtain ⟨L₀, h⟩ := C46_forged_random_hash (env := envDrawn) rfl envDrawn_challenges falseStatement
    (by decide) (by decide) (by decide) (a := 20) (by norm_num) (by norm_num) (N := 118) 1 (n := 600) rfl (by norm_num)
  by_contra hno
  push Not at hno
  have h1 := h L₀ le_rfl
  have h2 : probability ((Message L₀ → Commitment) × (WorkMessage → Commitment)) (fun ω =>
      ∃ proof, proof.traceLength = 2 ^ 20 ∧ proof.friLayersMerkleRoots = [] ∧ proof.deepPolyOpenings = [] ∧
        CairoAir.verifyCairoProof (hashing envDrawn ω.1 ω.2) proof falseStatement defaultTestOptions = .ok true) ≤
      probability ((Message L₀ → Commitment) × (WorkMessage → Commitment)) (fun _ => False) :=
    probability_mono fun ω ⟨proof, _, _, _, hp⟩ => hno L₀ ω.1 ω.2 proof hp
  rw [probability_false] at h2
  have h3 := h1.trans h2
  rw [show falseStatement.publicMemory.length = 0 from rfl, show (600 : Nat) = 200 * 3 from rfl, pow_mul] at h3
  norm_num at h3

/-- A prover that is found out at three of four positions whatever it sends, against the options of the level of 80
conjectured bits: a million attempts succeed with probability below `2^-62`. -/
example (env : Env F T) (seed : List (Commitment × (Fin 31 → Commitment)) → Commitment)
    (nonce : List (Commitment × (Fin 31 → Commitment)) → Nat) :
    probability (WorkMessage → Commitment × (Fin 31 → Commitment)) (fun A => ∃ i < 2 ^ 20,
      let seen := answers A (fun seen => workMessage (seed seen) (nonce seen)) i
      MeetsTarget (working env fun m => (A m).1).keccak (seed seen) 20 (nonce seen) ∧
      ∀ j, positionOf 5 ((A (workMessage (seed seen) (nonce seen))).2 j)
        ∉ (Finset.univ.filter fun p : Fin (2 ^ 5) => p.val < 24)) ≤ 1 / 2 ^ 62 := by
  have ho := (C53_conjectured_presets .release 252 3 (by norm_num)).1
  have h := C88_checked_security env (n := 5) (by norm_num) (b := 2) (by decide) (by decide) (by decide) ho (r := 24)
    (by rw [show (newSecure .conjecturable80Bits 3).blowupFactor.toNat = 4 from rfl]; norm_num) (2 ^ 20)
    (fun _ => Finset.univ.filter fun p : Fin (2 ^ 5) => p.val < 24) (fun _ => by decide +kernel) seed nonce
  refine h.trans ?_
  rw [show (80 : UInt8).toNat = 80 from rfl]
  norm_num

/-- The same for the level of 80 provable bits and a prover that is found out at half of the positions. -/
example (env : Env F T) (seed : List (Commitment × (Fin 80 → Commitment)) → Commitment)
    (nonce : List (Commitment × (Fin 80 → Commitment)) → Nat) :
    probability (WorkMessage → Commitment × (Fin 80 → Commitment)) (fun A => ∃ i < 2 ^ 20,
      let seen := answers A (fun seen => workMessage (seed seen) (nonce seen)) i
      MeetsTarget (working env fun m => (A m).1).keccak (seed seen) 20 (nonce seen) ∧
      ∀ j, positionOf 5 ((A (workMessage (seed seen) (nonce seen))).2 j)
        ∉ (Finset.univ.filter fun p : Fin (2 ^ 5) => p.val < 16)) ≤ 1 / 2 ^ 60 := by
  have h := C88_provable_presets env (n := 5) (by norm_num) 3 (level := .provable80Bits) (bits := 80) (by simp) (r := 16)
    (by rw [show (newSecure .provable80Bits 3).blowupFactor.toNat = 4 from rfl]; norm_num) (2 ^ 20)
    (fun _ => Finset.univ.filter fun p : Fin (2 ^ 5) => p.val < 16) (fun _ => by decide +kernel) seed nonce
  refine h.trans ?_
  norm_num

end Verif.Props
