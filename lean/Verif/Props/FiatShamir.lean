import Verif.Props.Codec
import Verif.Lemmas.FiatShamir
import Verif.Props.RapSound
import Verif.Props.Attempts

/-!
# C89: attempts in all the rounds
-/

namespace Verif.Props
open Verif.Spec Verif.Proximity Random Finset

variable {M Ch : Type} [Fintype M] [DecidableEq M] [Inhabited M]

instance reply_nonempty {e nb nt k q r : Nat} : Nonempty (Reply e nb nt k q r) := by
  obtain ⟨c⟩ := Prog.commitment_nonempty
  exact ⟨⟨fun _ => c, fun _ => c, fun _ => c, fun _ => c, fun _ => c, fun _ => c, c, c, fun _ => c, c, fun _ => c, c⟩⟩

/-- The probability that a lost game is not lost any more after the next round. -/
def roundError (nb nt k a b R m q g : Nat) (K : ℚ) (j : Nat) : ℚ :=
  if j = 0 then 0 else if j = 1 then (2 * nb + 2 * nt) / K else if j = 2 then (4 * 2 ^ a + 3 * 2 ^ (a + b)) / K
  else if j = 3 then (2 + k) * m / K else if j < 4 + a then m / K else 1 / 2 ^ g * (1 - (R + 1) / 2 ^ (a + b)) ^ q

theorem sum_roundError (nb nt k a b R m q g : Nat) (K : ℚ) :
    ∑ j ∈ range (a + 5), roundError nb nt k a b R m q g K j =
      (2 * nb + 2 * nt + (4 * 2 ^ a + 3 * 2 ^ (a + b)) + (2 + k + a) * m) / K
        + 1 / 2 ^ g * (1 - (R + 1) / 2 ^ (a + b)) ^ q := by
  rw [show a + 5 = 4 + a + 1 by omega, Finset.sum_range_succ, Finset.sum_range_add]
  have h1 : ∑ i ∈ range a, roundError nb nt k a b R m q g K (4 + i) = a * (m / K) := by
    rw [Finset.sum_congr rfl (g := fun _ => (m : ℚ) / K) fun i hi => ?_, Finset.sum_const, card_range, nsmul_eq_mul]
    have := mem_range.1 hi
    unfold roundError
    rw [if_neg (by omega), if_neg (by omega), if_neg (by omega), if_neg (by omega), if_pos (by omega)]
  have h2 : roundError nb nt k a b R m q g K (4 + a) = 1 / 2 ^ g * (1 - (R + 1) / 2 ^ (a + b)) ^ q := by
    unfold roundError
    rw [if_neg (by omega), if_neg (by omega), if_neg (by omega), if_neg (by omega), if_neg (by omega)]
  rw [h1, h2]
  simp only [Finset.sum_range_succ, Finset.sum_range_zero, roundError]
  simp
  ring

theorem roundError_nonneg (nb nt k a b R m q g : Nat) {K : ℚ} (hK : 0 < K) (hR : R + 1 ≤ 2 ^ (a + b)) (j : Nat) :
    0 ≤ roundError nb nt k a b R m q g K j := by
  have h0 : (0 : ℚ) ≤ 1 - (R + 1) / 2 ^ (a + b) := by
    rw [sub_nonneg, div_le_one (by positivity)]
    exact_mod_cast hR
  unfold roundError
  split_ifs <;> positivity

omit [Fintype M] [DecidableEq M] in
/-- One round. -/
theorem lost_step (rd : Reading M) {ta : TwoAdic FE} {air : Air FE Ch} {a b : Nat} (S : Setting air a b)
    {d : Domain FE} (hd : Domain.new ta air = .ok d) {w : FE} (hw : ta.root (a + b) = some w)
    (hc : ∀ ch, ∃ cs, PolynomialConstraints air ch cs ∧ cs.length = air.context.numTransitionConstraints) {nb : Nat}
    (hb : ∀ ch boundary, air.boundaryConstraints ch = .ok boundary → boundary.length = nb ∧
      ∀ c ∈ boundary, c.col < air.context.traceColumns ∧ c.step < 2 ^ a)
    (hcols : ∀ m0 m1, (rd.main m0).length + (rd.aux m1).length = air.context.traceColumns)
    {R m : Nat} (hR : DecodingRadius a b R m) {Q : List (List FE) → Prop}
    (hQ : ∀ m0 rows ch, rows.length = 2 ^ a → (∀ r ∈ rows, r.length = air.context.traceColumns) →
      Satisfies air rows air.context.traceColumns ch → Q (rows.map fun r => r.take (rd.main m0).length))
    {q r : Nat} {K : ℚ} (hK : K = 2 ^ 251 - (2 ^ (a + b) + 2 ^ a)) (hK0 : 0 < K)
    (l : List M) (rs : List (Reply air.numRapChallenges nb air.context.numTransitionConstraints
      (air.context.traceColumns * air.context.transitionOffsets.length) q r))
    (hlen : l.length = rs.length) (hlt : l.length < a + 5) (hlost : Lost rd air d a b w R m Q l rs) (x : M) :
    probability (Reply air.numRapChallenges nb air.context.numTransitionConstraints
      (air.context.traceColumns * air.context.transitionOffsets.length) q r)
      (fun y => ¬ Lost rd air d a b w R m Q (l ++ [x]) (rs ++ [y]))
      ≤ roundError nb air.context.numTransitionConstraints
          (air.context.traceColumns * air.context.transitionOffsets.length) a b R m q
          air.context.proofOptions.grindingFactor.toNat K l.length := by
  obtain ⟨g, w', D⟩ := domain_new S.rows S.length S.blowup hd
  obtain rfl : w = w' := Option.some.inj (hw.symm.trans D.hw)
  have hco : Derives challengeOf K := derives_challengeOf hK0 (by
    rw [hK]
    have : (0 : ℚ) ≤ 2 ^ (a + b) + 2 ^ a := by positivity
    linarith)
  have hdom : K = 2 ^ 251 - ((d.ldeRootsOfUnityCoset ++ d.traceRootsOfUnity).length : ℚ) := by
    rw [hK, D.lde, D.traceRoots]
    simp
  have hR1 : R + 1 ≤ 2 ^ (a + b) := by
    have : 0 < 2 ^ a := by positivity
    have := hR.unique
    omega
  have hzero : ∀ (P : Reply air.numRapChallenges nb air.context.numTransitionConstraints
      (air.context.traceColumns * air.context.transitionOffsets.length) q r → Prop) (j : Nat), (∀ y, ¬ P y) →
      probability _ P ≤ roundError nb air.context.numTransitionConstraints
          (air.context.traceColumns * air.context.transitionOffsets.length) a b R m q
          air.context.proofOptions.grindingFactor.toNat K j := by
    intro P j h
    refine (probability_mono (Q := fun _ => False) h).trans ?_
    rw [probability_false]
    exact roundError_nonneg _ _ _ _ _ _ _ _ _ hK0 hR1 j
  rcases l with _ | ⟨m0, _ | ⟨m1, l⟩⟩ <;> rcases rs with _ | ⟨r0, _ | ⟨r1, rs⟩⟩ <;>
    try (simp only [List.length_nil, List.length_cons] at hlen; omega)
  · exact hzero _ _ fun y h => h trivial
  · -- the coefficients of the constraints
    by_cases hno : DecodesTo d w air.context.proofOptions.cosetOffset a b R (rd.main m0) Q
    · exact hzero _ _ fun y h => h fun h2 => absurd hno h2
    by_cases h3 : ∃ boundary, air.boundaryConstraints (air.rapChallenges (List.ofFn (challengeOf ∘ r0.ε))) = .ok boundary
    swap
    · refine hzero _ _ fun y h => h fun _ => ?_
      refine fun halves => ⟨∅, by simp, fun z _ proof hp => ?_⟩
      have hs := hp.2.2
      unfold step2 at hs
      obtain ⟨boundary, hbd, -⟩ := Outcome.bind_eq_ok.1 hs
      exact absurd ⟨boundary, hbd⟩ h3
    obtain ⟨boundary, h3⟩ := h3
    obtain ⟨cs, h1, h2⟩ := hc (air.rapChallenges (List.ofFn (challengeOf ∘ r0.ε)))
    obtain ⟨rfl, h4⟩ := hb _ _ h3
    have h5 := lostCoeffs air a b R m S hd hw h1 h2 h3 h4 (cols := rd.main m0 ++ rd.aux x)
      (by rw [List.length_append]; exact hcols m0 x) hR (by
        rintro ⟨polys, hp, hs⟩
        refine hno ⟨_, decodes_append hp, ?_⟩
        have := hQ m0 _ _ (by rw [List.length_map, D.traceRoots]; simp) (by
          intro r hr
          obtain ⟨x, -, rfl⟩ := List.mem_map.1 hr
          rw [List.length_map, hp.length, List.length_append, hcols]) hs
        rw [List.map_map] at this
        convert this using 2
        funext x
        simp [List.map_take])
    have h6 := reply_coeffs (e := air.numRapChallenges) (q := q) (r := r)
      (k := air.context.traceColumns * air.context.transitionOffsets.length) hco
      (fun αB βB αT βT => LostCoeffs air d a b w R m
        ⟨air.rapChallenges (List.ofFn (challengeOf ∘ r0.ε)), rd.main m0 ++ rd.aux x, αB, βB, αT, βT⟩) h5
    exact (probability_mono fun y hy h => hy fun _ => h).trans h6
  by_cases hno : DecodesTo d w air.context.proofOptions.cosetOffset a b R (rd.main m0) Q
  · exact hzero _ _ fun y h => h fun h2 => absurd hno h2
  have hlost : LostHalves rd air d a b w R m (settledBy rd air m0 m1 r0 r1) l rs := hlost hno
  have hgoal : ∀ y, ¬ Lost rd air d a b w R m Q (m0 :: m1 :: l ++ [x]) (r0 :: r1 :: rs ++ [y]) →
      ¬ LostHalves rd air d a b w R m (settledBy rd air m0 m1 r0 r1) (l ++ [x]) (rs ++ [y]) :=
    fun y h h2 => h fun _ => h2
  refine (probability_mono hgoal).trans ?_
  clear hgoal
  generalize settledBy rd air m0 m1 r0 r1 = c at hlost
  simp only [List.length_cons] at hlen hlt ⊢
  rcases l with _ | ⟨m2, l⟩ <;> rcases rs with _ | ⟨r2, rs⟩ <;>
    try (simp only [List.length_nil, List.length_cons] at hlen; omega)
  · -- the point
    have h6 := reply_point (e := air.numRapChallenges) (nb := nb) (nt := air.context.numTransitionConstraints) (q := q)
      (r := r) (k := air.context.traceColumns * air.context.transitionOffsets.length) hdom hK0
      (hlost (rd.halves x))
    refine (probability_mono fun y hy => ?_).trans (h6.trans (le_of_eq ?_))
    · by_contra hcon
      push Not at hcon
      exact hy fun z hz => hcon z hz
    · show _ = (4 * 2 ^ a + 3 * 2 ^ (a + b)) / K
      push_cast
      rfl
  by_cases hpt : ∃ z, pointOf (d.ldeRootsOfUnityCoset ++ d.traceRootsOfUnity) (List.ofFn r2.points) = some z
  swap
  · exact hzero _ _ fun y h => h fun z hz => absurd ⟨z, hz⟩ hpt
  obtain ⟨z, hz⟩ := hpt
  have hlost : LostClaims rd air d a b w R m c (rd.halves m2) z l rs := hlost z hz
  have hgoal : ∀ y, ¬ LostHalves rd air d a b w R m c (m2 :: l ++ [x]) (r2 :: rs ++ [y]) →
      ¬ LostClaims rd air d a b w R m c (rd.halves m2) z (l ++ [x]) (rs ++ [y]) := by
    intro y h h2
    refine h fun z' hz' => ?_
    obtain rfl : z = z' := Option.some.inj (hz.symm.trans hz')
    exact h2
  refine (probability_mono hgoal).trans ?_
  clear hgoal
  simp only [List.length_cons] at hlen hlt ⊢
  rcases l with _ | ⟨m3, l⟩ <;> rcases rs with _ | ⟨r3, rs⟩ <;>
    try (simp only [List.length_nil, List.length_cons] at hlen; omega)
  · -- the coefficients of the DEEP values
    by_cases hp : ClaimsPass air d c z (rd.claims x)
    swap
    · exact hzero _ _ fun y h => h fun h2 => absurd h2 hp
    have h6 := reply_deep (e := air.numRapChallenges) (nb := nb) (nt := air.context.numTransitionConstraints) (q := q)
      (r := r) hco (fun γe γo γ => FriLost m (ManyFail air a b w R
        (deepOf air d w c (rd.halves m2) z (rd.claims x) γe γo γ)) a [] []) (hlost _ hp)
    refine (probability_mono fun y hy h => hy fun _ => ?_).trans h6
    show LostFri rd air a b w R m _ [] []
    unfold LostFri
    rw [if_pos (by simp)]
    exact h
  by_cases hp : ClaimsPass air d c z (rd.claims m3)
  swap
  · exact hzero _ _ fun y h => h fun h2 => absurd h2 hp
  have hlost : LostFri rd air a b w R m (deepOf air d w c (rd.halves m2) z (rd.claims m3) (challengeOf r3.γe)
    (challengeOf r3.γo) (List.ofFn (challengeOf ∘ r3.γ))) l rs := hlost hp
  have hgoal : ∀ y, ¬ LostClaims rd air d a b w R m c (rd.halves m2) z (m3 :: l ++ [x]) (r3 :: rs ++ [y]) →
      ¬ LostFri rd air a b w R m (deepOf air d w c (rd.halves m2) z (rd.claims m3) (challengeOf r3.γe)
        (challengeOf r3.γo) (List.ofFn (challengeOf ∘ r3.γ))) (l ++ [x]) (rs ++ [y]) :=
    fun y h h2 => h fun _ => h2
  refine (probability_mono hgoal).trans ?_
  clear hgoal
  generalize deepOf air d w c (rd.halves m2) z (rd.claims m3) (challengeOf r3.γe) (challengeOf r3.γo)
    (List.ofFn (challengeOf ∘ r3.γ)) = deep at hlost
  simp only [List.length_cons] at hlen hlt ⊢
  unfold LostFri at hlost
  rw [if_pos (by omega)] at hlost
  by_cases hl : l.length < a
  · -- the challenges of FRI
    obtain ⟨n, hn⟩ : ∃ n, a - l.length = n + 1 := ⟨a - l.length - 1, by omega⟩
    rw [hn] at hlost
    have h6 := reply_fold (e := air.numRapChallenges) (nb := nb) (nt := air.context.numTransitionConstraints) (q := q)
      (r := r) (k := air.context.traceColumns * air.context.transitionOffsets.length) hco (hlost (rd.layer x))
    refine (probability_mono fun y hy h => hy ?_).trans (h6.trans (le_of_eq ?_))
    · unfold roundError
      rw [if_neg (by omega), if_neg (by omega), if_neg (by omega), if_neg (by omega), if_pos (by omega)]
    · unfold LostFri
      rw [List.length_append, List.length_singleton, if_pos (by omega), show a - (l.length + 1) = n by omega,
        List.map_append, List.map_append]
      exact h
  · -- the queries
    have hla : l.length = a := by omega
    rw [show a - l.length = 0 by omega] at hlost
    obtain ⟨failing, h1, h2⟩ := hlost (rd.last x)
    have h6 := reply_queries (e := air.numRapChallenges) (nb := nb) (nt := air.context.numTransitionConstraints) (q := q)
      (r := r) (k := air.context.traceColumns * air.context.transitionOffsets.length) D.small.le
      air.context.proofOptions.grindingFactor.toNat h1 h2
    refine (probability_mono fun y hy => ?_).trans (h6.trans (le_of_eq ?_))
    · unfold LostFri at hy
      rw [List.length_append, List.length_singleton, if_neg (by omega)] at hy
      push Not at hy
      obtain ⟨y', hy1, hy2, hy3⟩ := hy
      have hra : rs.length = a := by omega
      rw [List.getElem?_append_right (by omega), hra, Nat.sub_self] at hy1
      obtain rfl : y = y' := by simpa using hy1
      refine ⟨hy2, fun i => ?_⟩
      have := hy3 i
      rw [List.take_append_of_le_length (by omega), List.take_append_of_le_length (by omega),
        List.take_of_length_le (by omega), List.take_of_length_le (by omega), List.getD_eq_getElem?_getD,
        List.getElem?_append_right (by omega), hla, Nat.sub_self] at this
      exact this
    · unfold roundError
      rw [if_neg (by omega), if_neg (by omega), if_neg (by omega), if_neg (by omega), if_neg (by omega)]

theorem range_four {D : Type} (a : Nat) (f : Nat → D) :
    (List.range (a + 5)).map f = f 0 :: f 1 :: f 2 :: f 3 :: (List.range (a + 1)).map fun i => f (i + 4) := by
  rw [show a + 5 = (a + 1) + 4 by omega]
  simp only [List.range_succ_eq_map, List.map_cons, List.map_map]
  rfl

omit [Fintype M] [DecidableEq M] in
/-- With messages that convince, the game is not lost. -/
theorem not_lost (rd : Reading M) {air : Air FE Ch} {d : Domain FE} {a b : Nat} {w : FE} {R m : Nat}
    {Q : List (List FE) → Prop} {nb nt q r : Nat}
    {H : Told M (a + 5) → Reply air.numRapChallenges nb nt
      (air.context.traceColumns * air.context.transitionOffsets.length) q r} {l : Told M (a + 5)} (ha : 1 ≤ a)
    (h : rd.Convinces air d a b w H l)
    (hno : ¬ DecodesTo d w air.context.proofOptions.cosetOffset a b R (rd.main (l.val.getD 0 default)) Q) :
    ¬ Lost rd air d a b w R m Q l.val (repliesTo H l) := by
  obtain ⟨hl, hwork, ⟨e, αB, βB, αT, βT, z, γe, γo, γ, ζ, ι⟩, hder, hwin⟩ := h
  intro hlost
  have hself : l.first (a + 5) = l := told_first_self l hl.le
  have hr : repliesTo H l = H (l.first 1) :: H (l.first 2) :: H (l.first 3) :: H (l.first 4) ::
      (List.range (a + 1)).map fun i => H (l.first (i + 5)) := by
    unfold repliesTo
    rw [hl]
    exact range_four a fun j => H (l.first (j + 1))
  obtain ⟨m0, m1, m2, m3, ms, hm, hms⟩ : ∃ m0 m1 m2 m3 ms, l.val = m0 :: m1 :: m2 :: m3 :: ms ∧ ms.length = a + 1 := by
    rcases hv : l.val with _ | ⟨m0, _ | ⟨m1, _ | ⟨m2, _ | ⟨m3, ms⟩⟩⟩⟩ <;> rw [hv] at hl <;>
      simp only [List.length_nil, List.length_cons] at hl
    · omega
    · omega
    · omega
    · omega
    · exact ⟨m0, m1, m2, m3, ms, rfl, by omega⟩
  rw [hr, hm] at hlost
  unfold derived digestsFor at hder
  rw [Option.map_eq_some_iff] at hder
  obtain ⟨z', hz, hder⟩ := hder
  simp only [Prod.mk.injEq] at hder
  obtain ⟨rfl, rfl, rfl, rfl, rfl, rfl, rfl, rfl, rfl, rfl, rfl⟩ := hder
  obtain ⟨w1, w2, w3, w4⟩ := hwin
  rw [hm] at hno
  have hp : ClaimsPass air d (settledBy rd air m0 m1 (H (l.first 1)) (H (l.first 2))) z' (rd.claims m3) := by
    simp only [Reading.plays, Reading.columns, hm] at w1 w2 w3
    exact ⟨w1, w2, w3⟩
  have hlost := hlost hno z' hz hp
  unfold LostFri at hlost
  rw [if_neg (by omega)] at hlost
  refine hlost (H l) ?_ ⟨hwork, fun i => ?_⟩
  · rw [List.getElem?_map, List.getElem?_range (by omega), Option.map_some, hself]
  have h4 := w4 i
  rw [hself] at h4
  simp only [Reading.plays, Reading.columns, hm, List.length_nil] at h4
  obtain ⟨h5, h6⟩ := h4
  have hζ : ((List.range (a + 1)).map fun i => H (l.first (i + 5))).take a
      = (List.range a).map fun i => H (l.first (i + 5)) := by
    rw [← List.map_take, List.take_range, min_eq_left (by omega)]
  have hζ2 : List.ofFn (challengeOf ∘ fun i : Fin a => (H (l.first (5 + i))).ζ)
      = ((List.range a).map fun i => H (l.first (i + 5))).map fun x => challengeOf x.ζ := by
    refine List.ext_getElem (by simp) fun i h1 h2 => ?_
    simp [Nat.add_comm 5 i]
  have hlayer : ∀ i < a, ((ms.take a).map rd.layer).getD i (fun _ => 0) = rd.layer (ms.getD i default) := by
    intro i hi
    rw [List.getD_eq_getElem?_getD, List.getElem?_map, List.getElem?_take_of_lt hi, List.getElem?_eq_getElem (by omega),
      List.getD_eq_getElem?_getD, List.getElem?_eq_getElem (by omega)]
    rfl
  refine ⟨?_, fun j hj => ?_⟩
  · rw [hlayer 0 (by omega)]
    exact h5
  · have h7 := h6 j hj
    have hlen : ∀ j, j ≤ a → ((List.ofFn (challengeOf ∘ fun i : Fin a => (H (l.first (5 + i))).ζ)).take j).length = j := by
      intro j hj
      rw [List.length_take, List.length_ofFn]
      omega
    have hget : ∀ j, (m0 :: m1 :: m2 :: m3 :: ms).getD (4 + j) default = ms.getD j default := by
      intro j
      rw [Nat.add_comm]
      rfl
    beta_reduce at h7 ⊢
    rw [hlayer j hj, hζ, ← hζ2]
    simp only [hlen j hj.le, hget] at h7
    refine Eq.trans h7 ?_
    split
    next hj' =>
      rw [hlayer _ hj', hlen _ hj'.le]
      rfl
    next => rfl

/-- **C89.** The verifier is a random function `H` of the messages of the prover up to each point, and the prover asks it
for `N` values: each time for any messages it likes, which it chooses from the values so far. The probability that one of the
things it has asked for is a complete sequence of messages that convinces the verifier, although the main columns in it do
not decode to a table with a property that the constraints force, is at most `N` times the error of one attempt. In it the
error of the queries, but not the one of the challenges, is divided by the work for a nonce. -/
theorem C89_attempts (rd : Reading M) {ta : TwoAdic FE} {air : Air FE Ch} {a b : Nat} (S : Setting air a b)
    {d : Domain FE} (hd : Domain.new ta air = .ok d) {w : FE} (hw : ta.root (a + b) = some w)
    (hc : ∀ ch, ∃ cs, PolynomialConstraints air ch cs ∧ cs.length = air.context.numTransitionConstraints) {nb : Nat}
    (hb : ∀ ch boundary, air.boundaryConstraints ch = .ok boundary → boundary.length = nb ∧
      ∀ c ∈ boundary, c.col < air.context.traceColumns ∧ c.step < 2 ^ a)
    (hcols : ∀ m0 m1, (rd.main m0).length + (rd.aux m1).length = air.context.traceColumns)
    {R m : Nat} (hR : DecodingRadius a b R m) {Q : List (List FE) → Prop}
    (hQ : ∀ m0 rows ch, rows.length = 2 ^ a → (∀ r ∈ rows, r.length = air.context.traceColumns) →
      Satisfies air rows air.context.traceColumns ch → Q (rows.map fun r => r.take (rd.main m0).length))
    {q r : Nat}
    (ask : List (Reply air.numRapChallenges nb air.context.numTransitionConstraints
      (air.context.traceColumns * air.context.transitionOffsets.length) q r) → Told M (a + 5)) (N : Nat) :
    probability (Told M (a + 5) → Reply air.numRapChallenges nb air.context.numTransitionConstraints
        (air.context.traceColumns * air.context.transitionOffsets.length) q r)
      (fun H => ∃ i < N, rd.Convinces air d a b w H (ask (answers H ask i)) ∧
        ¬ DecodesTo d w air.context.proofOptions.cosetOffset a b R
          (rd.main ((ask (answers H ask i)).val.getD 0 default)) Q)
      ≤ N * attemptError nb air.context.numTransitionConstraints air.context.traceColumns
          air.context.transitionOffsets.length a b R m q air.context.proofOptions.grindingFactor.toNat := by
  obtain ⟨g, w', D⟩ := domain_new S.rows S.length S.blowup hd
  have h1 : (2 : ℚ) ^ (a + b) ≤ 2 ^ 64 := pow_le_pow_right₀ (by norm_num) D.small.le
  have h2 : (2 : ℚ) ^ a ≤ 2 ^ 64 := pow_le_pow_right₀ (by norm_num) (by have := D.small; omega)
  have hK0 : (0 : ℚ) < 2 ^ 251 - (2 ^ (a + b) + 2 ^ a) := by
    have : (2 : ℚ) ^ 64 + 2 ^ 64 < 2 ^ 251 := by norm_num
    linarith
  have hR1 : R + 1 ≤ 2 ^ (a + b) := by
    have : 0 < 2 ^ a := by positivity
    have := hR.unique
    omega
  have h3 := round_by_round (M := M) (n := a + 5) (Lost rd air d a b w R m Q)
    (roundError nb air.context.numTransitionConstraints
      (air.context.traceColumns * air.context.transitionOffsets.length) a b R m q
      air.context.proofOptions.grindingFactor.toNat (2 ^ 251 - (2 ^ (a + b) + 2 ^ a)))
    (fun j _ => roundError_nonneg _ _ _ _ _ _ _ _ _ hK0 hR1 j) trivial
    (fun l rs hlen hlt hlost x => lost_step rd S hd hw hc hb hcols hR hQ rfl hK0 l rs hlen hlt hlost x) ask N
  rw [sum_roundError] at h3
  refine (probability_mono ?_).trans (h3.trans (le_of_eq ?_))
  · rintro H ⟨i, hi, h4, h5⟩
    exact ⟨i, hi, not_lost rd S.rows h4 h5⟩
  · unfold attemptError
    push_cast
    rfl

section cairo
open CairoAir ProofOptions

omit [Fintype M] [DecidableEq M] [Inhabited M] in
/-- The transition constraints of the Cairo AIR are polynomials, as many as it says. -/
theorem cairo_polynomials {n : Nat} (hn : 2 ≤ n) (pi : PublicInputs) (opts : ProofOptions) (ch) :
    ∃ cs, PolynomialConstraints (CairoAir.air n pi opts) ch cs ∧
      cs.length = (CairoAir.air n pi opts).context.numTransitionConstraints :=
  ⟨_, air_polynomial _ pi opts ch, by
    have := (List.forall₂_iff_get.1 (constraintPolys_degrees (hasRcBuiltin pi) ch)).1
    rw [this]
    exact (air_fits hn pi opts).degrees_len⟩

omit [Fintype M] [DecidableEq M] [Inhabited M] in
/-- The boundary constraints of the Cairo AIR lie in the trace. -/
theorem cairo_boundary {a : Nat} (ha : 1 ≤ a) {pi : PublicInputs} (hsteps : pi.numSteps ≤ 2 ^ a) (opts : ProofOptions) (ch boundary)
    (h : (CairoAir.air (2 ^ a) pi opts).boundaryConstraints ch = .ok boundary) :
    boundary.length = 8 ∧ ∀ c ∈ boundary, c.col < (CairoAir.air (2 ^ a) pi opts).context.traceColumns ∧ c.step < 2 ^ a := by
  have h2 : 2 ^ 1 ≤ 2 ^ a := Nat.pow_le_pow_right (by norm_num) ha
  have hcols : 52 ≤ traceColumns (hasRcBuiltin pi) := by cases hasRcBuiltin pi <;> simp [traceColumns]
  have hboff : traceColumns (hasRcBuiltin pi) + builtinOffset (hasRcBuiltin pi) = 61 := by
    cases hasRcBuiltin pi <;> simp [traceColumns, builtinOffset, BUILTIN_OFFSET]
  obtain ⟨h1, h2, lo, hi, h3, h4, h5, rfl⟩ := boundaryConstraints_ok h
  refine ⟨rfl, ?_⟩
  intro c hc
  change c.col < traceColumns (hasRcBuiltin pi) ∧ _
  simp only [List.mem_cons, List.not_mem_nil, or_false] at hc
  rcases hc with rfl | rfl | rfl | rfl | rfl | rfl | rfl | rfl <;>
    simp only [MEM_A_TRACE_OFFSET, MEM_P_TRACE_OFFSET, PERMUTATION_ARGUMENT_COL_0,
      PERMUTATION_ARGUMENT_RANGE_CHECK_COL_1, RANGE_CHECK_COL_1, RANGE_CHECK_COL_3] <;>
    constructor <;> omega

omit [Fintype M] [DecidableEq M] [Inhabited M] in
/-- What the main columns of a table that satisfies the Cairo AIR are. -/
theorem cairo_selected {a : Nat} (ha : 1 ≤ a) {pi : PublicInputs} (hsteps : pi.numSteps ≤ 2 ^ a) {opts : ProofOptions} {rows : List (List FE)} {ch}
    (hl : rows.length = 2 ^ a) (hrect : ∀ r ∈ rows, r.length = (CairoAir.air (2 ^ a) pi opts).context.traceColumns)
    (hsat : Satisfies (CairoAir.air (2 ^ a) pi opts) rows (CairoAir.air (2 ^ a) pi opts).context.traceColumns ch) :
    SelectedRun pi (rows.map fun r => r.take (traceColumns (hasRcBuiltin pi) - 18)) := by
  have h2 : 2 ^ 1 ≤ 2 ^ a := Nat.pow_le_pow_right (by norm_num) ha
  have hcols : 52 ≤ traceColumns (hasRcBuiltin pi) := by cases hasRcBuiltin pi <;> simp [traceColumns]
  generalize hmain : traceColumns (hasRcBuiltin pi) - 18 = u
  have hacc : Accepted pi opts rows ch := ⟨hrect, by omega, by rw [hl]; exact hsat⟩
  have hc : ∀ i c, c < 34 → cell (rows.map fun r => r.take u) i c = cell rows i c :=
    fun i c hc => cell_take (by omega)
  have hregs : ∀ i, regsAt (rows.map fun r => r.take u) i = regsAt rows i := by
    intro i
    simp only [regsAt]
    rw [hc _ _ (by decide), hc _ _ (by decide), hc _ _ (by decide)]
  have hax : ∀ k, access (rows.map fun r => r.take u) k = access rows k := by
    intro k
    have hk : k % 4 < 4 := Nat.mod_lt _ (by decide)
    simp only [access, FRAME_PC, FRAME_INST]
    rw [hc _ _ (by omega), hc _ _ (by omega)]
  have hof : ∀ k, offset (rows.map fun r => r.take u) k = offset rows k := by
    intro k
    have hk : k % 3 < 3 := Nat.mod_lt _ (by decide)
    simp only [offset, OFF_DST]
    rw [hc _ _ (by omega)]
  obtain ⟨-, h1, h2, h3, h4⟩ := C32_boundary_partial hacc
  refine ⟨by rw [hregs]; exact ⟨h1, h2⟩, by rw [hregs]; exact ⟨h3, h4⟩, ?_⟩
  intro m i hi hsel ho hm hlegal
  rw [List.length_map] at hi
  rw [hc _ _ (by decide)] at hsel
  rw [hregs] at hlegal
  rw [hregs, hregs]
  refine C26_selected_steps_partial hacc m i hi hsel ?_ ?_ hlegal
  · intro k hk
    rw [← hof]
    exact ho k hk
  · intro k hk
    rw [← hax]
    exact hm k hk

/-- **C89**, the Cairo AIR. -/
theorem C89_cairo (rd : Reading M) {ta : TwoAdic FE} {opts : ProofOptions} {a b : Nat} {d : Domain FE} {w : FE} {R m : Nat}
    (ha : 1 ≤ a) (hb : 1 ≤ b) {pi : PublicInputs} (hsteps : pi.numSteps ≤ 2 ^ a)
    (hblow : opts.blowupFactor.toNat = 2 ^ b) (hoff : (opts.cosetOffset : FE) ≠ 0)
    (hd : Domain.new ta (CairoAir.air (2 ^ a) pi opts) = .ok d) (hw : ta.root (a + b) = some w)
    (hR : DecodingRadius a b R m) (hmain : ∀ x, (rd.main x).length = traceColumns (hasRcBuiltin pi) - 18)
    (haux : ∀ x, (rd.aux x).length = 18) {q r : Nat}
    (ask : List (Reply 3 8 (numTransitionConstraints (hasRcBuiltin pi)) (traceColumns (hasRcBuiltin pi) * 2) q r) →
      Told M (a + 5)) (N : Nat) :
    probability (Told M (a + 5) → Reply 3 8 (numTransitionConstraints (hasRcBuiltin pi))
        (traceColumns (hasRcBuiltin pi) * 2) q r)
      (fun H => ∃ i < N, rd.Convinces (CairoAir.air (2 ^ a) pi opts) d a b w H (ask (answers H ask i)) ∧
        ¬ DecodesTo d w opts.cosetOffset a b R (rd.main ((ask (answers H ask i)).val.getD 0 default)) (SelectedRun pi))
      ≤ N * attemptError 8 (numTransitionConstraints (hasRcBuiltin pi)) (traceColumns (hasRcBuiltin pi)) 2 a b R m q
          opts.grindingFactor.toNat := by
  have h2 : 2 ^ 1 ≤ 2 ^ a := Nat.pow_le_pow_right (by norm_num) ha
  have hcols : 52 ≤ traceColumns (hasRcBuiltin pi) := by cases hasRcBuiltin pi <;> simp [traceColumns]
  exact C89_attempts rd (air := CairoAir.air (2 ^ a) pi opts)
    ⟨ha, hb, rfl, hblow, hoff, air_fits (by omega) pi opts⟩ hd hw (cairo_polynomials (by omega) pi opts) (nb := 8)
    (cairo_boundary ha hsteps opts)
    (fun x y => by
      rw [hmain, haux]
      exact Nat.sub_add_cancel (by omega)) hR (Q := SelectedRun pi) (by
      intro x rows ch hl hrect hsat
      rw [hmain]
      exact cairo_selected ha hsteps hl hrect hsat) ask N

omit [Fintype M] [DecidableEq M] [Inhabited M] in
/-- The error of one attempt with the levels of `new_secure`. -/
theorem attemptError_levels {level : SecurityLevel} {bits : Nat} (off : Nat)
    (hl : (level, bits) ∈ [(SecurityLevel.conjecturable80Bits, 40), (.conjecturable100Bits, 47),
      (.conjecturable128Bits, 56), (.provable80Bits, 73), (.provable100Bits, 89), (.provable128Bits, 113)])
    {c : Nat} (ha' : c + 7 ≤ 40) (pi : PublicInputs) :
    attemptError 8 (numTransitionConstraints (hasRcBuiltin pi)) (traceColumns (hasRcBuiltin pi)) 2 (c + 7) 2
      (189 * 2 ^ c - 1) (2 ^ (c + 18)) (newSecure level off).friNumberOfQueries 20 ≤ 1 / 2 ^ bits := by
  have hpos : 0 < 2 ^ c := by positivity
  have e1 : (1 - (((189 * 2 ^ c - 1 : Nat) : ℚ) + 1) / 2 ^ (c + 7 + 2)) = 323 / 512 := by
    rw [Nat.cast_sub (by omega), show c + 7 + 2 = c + 9 by rfl, pow_add]
    push_cast
    field_simp
    ring
  have e2 : 2 ^ (c + 18) ≤ 2 ^ 51 := Nat.pow_le_pow_right (by norm_num) (by omega)
  unfold attemptError
  rw [e1]
  have h1 : (2 * (8 : Nat) + 2 * (numTransitionConstraints (hasRcBuiltin pi) : ℚ) + (4 * 2 ^ (c + 7) + 3 * 2 ^ (c + 7 + 2))
      + (2 + (traceColumns (hasRcBuiltin pi) : ℚ) * (2 : Nat) + (c + 7 : Nat)) * (2 ^ (c + 18) : Nat))
      / (2 ^ 251 - (2 ^ (c + 7 + 2) + 2 ^ (c + 7))) ≤ 1 / 2 ^ 190 := by
    have h5 : numTransitionConstraints (hasRcBuiltin pi) ≤ 50 ∧ traceColumns (hasRcBuiltin pi) ≤ 61 := by
      cases hasRcBuiltin pi <;> decide
    have h6 : (numTransitionConstraints (hasRcBuiltin pi) : ℚ) ≤ 50 := by exact_mod_cast h5.1
    have h7 : (traceColumns (hasRcBuiltin pi) : ℚ) ≤ 61 := by exact_mod_cast h5.2
    have h8 : ((c + 7 : Nat) : ℚ) ≤ 40 := by exact_mod_cast ha'
    have h9 : (2 : ℚ) ^ (c + 7) ≤ 2 ^ 40 := pow_le_pow_right₀ (by norm_num) ha'
    have h10 : ((2 ^ (c + 18) : Nat) : ℚ) ≤ 2 ^ 51 := by exact_mod_cast e2
    have h13 : (2 : ℚ) ^ (c + 7 + 2) = 4 * 2 ^ (c + 7) := by
      rw [pow_add _ (c + 7) 2]
      ring
    rw [h13]
    have h11 : (2 + (traceColumns (hasRcBuiltin pi) : ℚ) * (2 : Nat) + (c + 7 : Nat)) * (2 ^ (c + 18) : Nat) ≤ 164 * 2 ^ 51 := by
      refine mul_le_mul ?_ h10 (by positivity) (by norm_num)
      push_cast at h8 ⊢
      linarith
    generalize (2 + (traceColumns (hasRcBuiltin pi) : ℚ) * (2 : Nat) + (c + 7 : Nat)) * (2 ^ (c + 18) : Nat) = u at h11
    generalize (2 : ℚ) ^ (c + 7) = v at h9
    rw [div_le_iff₀ (by norm_num at h9 ⊢; linarith)]
    norm_num at h9 h11 ⊢
    linarith
  refine (add_le_add_left h1 _).trans ?_
  simp only [List.mem_cons, Prod.mk.injEq, List.not_mem_nil, or_false] at hl
  rcases hl with ⟨rfl, rfl⟩ | ⟨rfl, rfl⟩ | ⟨rfl, rfl⟩ | ⟨rfl, rfl⟩ | ⟨rfl, rfl⟩ | ⟨rfl, rfl⟩
  · rw [show (newSecure .conjecturable80Bits off).friNumberOfQueries = 31 from rfl]; norm_num
  · rw [show (newSecure .conjecturable100Bits off).friNumberOfQueries = 41 from rfl]; norm_num
  · rw [show (newSecure .conjecturable128Bits off).friNumberOfQueries = 55 from rfl]; norm_num
  · rw [show (newSecure .provable80Bits off).friNumberOfQueries = 80 from rfl]; norm_num
  · rw [show (newSecure .provable100Bits off).friNumberOfQueries = 104 from rfl]; norm_num
  · rw [show (newSecure .provable128Bits off).friNumberOfQueries = 140 from rfl]; norm_num

/-- **C89**, the levels of `new_secure`: what the bound gives for them, for `2^7` to `2^40` rows and columns decoded up to the
part `189 / 512` of the points. -/
theorem C89_cairo_levels (rd : Reading M) {ta : TwoAdic FE} {level : SecurityLevel} {bits off : Nat}
    (hl : (level, bits) ∈ [(SecurityLevel.conjecturable80Bits, 40), (.conjecturable100Bits, 47),
      (.conjecturable128Bits, 56), (.provable80Bits, 73), (.provable100Bits, 89), (.provable128Bits, 113)])
    {a : Nat} {d : Domain FE} {w : FE} (ha : 7 ≤ a) (ha' : a ≤ 40) {pi : PublicInputs} (hsteps : pi.numSteps ≤ 2 ^ a)
    (hoff : (off : FE) ≠ 0) (hd : Domain.new ta (CairoAir.air (2 ^ a) pi (newSecure level off)) = .ok d)
    (hw : ta.root (a + 2) = some w) (hmain : ∀ x, (rd.main x).length = traceColumns (hasRcBuiltin pi) - 18)
    (haux : ∀ x, (rd.aux x).length = 18) {r : Nat}
    (ask : List (Reply 3 8 (numTransitionConstraints (hasRcBuiltin pi)) (traceColumns (hasRcBuiltin pi) * 2)
      (newSecure level off).friNumberOfQueries r) → Told M (a + 5)) (N : Nat) :
    probability (Told M (a + 5) → Reply 3 8 (numTransitionConstraints (hasRcBuiltin pi))
        (traceColumns (hasRcBuiltin pi) * 2) (newSecure level off).friNumberOfQueries r)
      (fun H => ∃ i < N, rd.Convinces (CairoAir.air (2 ^ a) pi (newSecure level off)) d a 2 w H (ask (answers H ask i)) ∧
        ¬ DecodesTo d w off a 2 (189 * 2 ^ (a - 7) - 1) (rd.main ((ask (answers H ask i)).val.getD 0 default))
          (SelectedRun pi))
      ≤ N / 2 ^ bits := by
  obtain ⟨c, rfl⟩ : ∃ c, a = c + 7 := ⟨a - 7, by omega⟩
  rw [Nat.add_sub_cancel]
  have hblow : (newSecure level off).blowupFactor.toNat = 2 ^ 2 := by cases level <;> rfl
  have hgrind : (newSecure level off).grindingFactor.toNat = 20 := by cases level <;> rfl
  have hcos : (newSecure level off).cosetOffset = off := by cases level <;> rfl
  have h := C89_cairo rd (by omega) (b := 2) (by norm_num) hsteps hblow (by rw [hcos]; exact hoff) hd hw (radius_cube c)
    hmain haux ask N
  rw [hgrind, hcos] at h
  refine h.trans ?_
  rw [div_eq_mul_one_div]
  refine mul_le_mul_of_nonneg_left ?_ (Nat.cast_nonneg N)
  exact attemptError_levels off hl ha' pi

end cairo

/-- The hypotheses of `C89_cairo_levels` are met by the claim of the example run with 128 rows, for messages that are bits and
stand for constant columns; what the bit zero stands for does not decode to a run. -/
example : ∃ (d : Domain FE) (w : FE) (rd : Reading Bool), starkRoots.root (7 + 2) = some w ∧
    Domain.new starkRoots (CairoAir.air (2 ^ 7) Examples.main0.2 (ProofOptions.newSecure .provable80Bits 3)) = .ok d ∧
    Examples.main0.2.numSteps ≤ 2 ^ 7 ∧
    (∀ x, (rd.main x).length = CairoAir.traceColumns (CairoAir.hasRcBuiltin Examples.main0.2) - 18) ∧
    (∀ x, (rd.aux x).length = 18) ∧
    ¬ DecodesTo d w ((3 : Nat) : FE) 7 2 (189 * 2 ^ (7 - 7) - 1) (rd.main false) (SelectedRun Examples.main0.2) := by
  obtain ⟨w, hw⟩ := Option.isSome_iff_exists.mp (starkRoots.defined (7 + 2) (by norm_num) (by decide))
  obtain ⟨d, hd⟩ := domain_exists (ta := starkRoots)
    (air := CairoAir.air (2 ^ 7) Examples.main0.2 (ProofOptions.newSecure .provable80Bits 3)) (a := 7) (b := 2)
    (by norm_num) rfl rfl (by norm_num) (by decide)
  refine ⟨d, w,
    { main := fun x => List.replicate 34 fun _ => if x then 1 else 0
      aux := fun x => List.replicate 18 fun _ => if x then 1 else 0
      halves := fun _ => (fun _ => 0, fun _ => 0)
      claims := fun _ => sampleProof
      layer := fun _ _ => 0
      last := fun _ => 0 }, hw, hd, by decide +kernel, fun x => ?_, fun x => ?_, ?_⟩
  · rw [show CairoAir.traceColumns (CairoAir.hasRcBuiltin Examples.main0.2) - 18 = 34 by decide +kernel]
    exact List.length_replicate
  · exact List.length_replicate
  refine zeros_not_decode (air := CairoAir.air (2 ^ 7) Examples.main0.2 (ProofOptions.newSecure .provable80Bits 3)) (a := 7)
    (b := 2) (by norm_num) rfl rfl (by change ((3 : Nat) : FE) ≠ 0; decide +kernel) hd hw (by norm_num) 34 ?_
  intro h
  have h1 := h.first.1
  have h2 : Examples.main0.2.pcInit = 1 := by decide +kernel
  rw [h2] at h1
  exact absurd h1 (by decide +kernel)

end Verif.Props
