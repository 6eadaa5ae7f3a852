import Verif.Lemmas.RoundByRound
import Verif.Props.StarkSound
import Verif.Props.Work
import Verif.Props.Derivation
import Mathlib.Algebra.BigOperators.Fin

/-!
# The rounds of the game with a random function for verifier
-/

namespace Verif
open Verif.Spec Verif.Proximity Random Finset

section alternate
variable {F : Type}

/-- FRI is lost after some layers and challenges, with `n` layers to come: whatever the next layer is, for all but `m`
challenges it is lost after them, and in the end `Fail` holds whatever the last value is. -/
def FriLost (m : Nat) (Fail : List (Nat → F) → F → List F → Prop) : Nat → List (Nat → F) → List F → Prop
  | 0, ws, ζs => ∀ last, Fail ws last ζs
  | n + 1, ws, ζs => ∀ w, AllBut m fun ζ => FriLost m Fail n (ws ++ [w]) (ζs ++ [ζ])

/-- The layers that a strategy commits to. -/
def layersOf (S : FriStrategy F) (n : Nat) (ζ : List F) : List (Nat → F) :=
  (List.range n).map fun i => S.layer (ζ.take i)

theorem layersOf_length (S : FriStrategy F) (n : Nat) (ζ : List F) : (layersOf S n ζ).length = n := by
  simp [layersOf]

theorem layersOf_getElem (S : FriStrategy F) {n : Nat} (ζ : List F) {i : Nat} (h : i < n) :
    (layersOf S n ζ)[i]? = some (S.layer (ζ.take i)) := by
  simp [layersOf, List.getElem?_range h]

theorem layersOf_append (S : FriStrategy F) (ζ l : List F) : layersOf S ζ.length (ζ ++ l) = layersOf S ζ.length ζ := by
  unfold layersOf
  refine List.map_congr_left fun i hi => ?_
  rw [List.mem_range] at hi
  rw [List.take_append_of_le_length hi.le]

theorem friLost_of_strategies [Inhabited F] {m a : Nat} {Fail : List (Nat → F) → F → List F → Prop} (n : Nat) :
    ∀ (ws : List (Nat → F)) (ζs : List F), ws.length = ζs.length → ζs.length + n = a →
    (∀ S : FriStrategy F, layersOf S ζs.length ζs = ws →
      AllButDraws m n fun l => Fail (layersOf S a (ζs ++ l)) (S.last (ζs ++ l)) (ζs ++ l)) →
    FriLost m Fail n ws ζs := by
  classical
  have hex : ∀ (ws : List (Nat → F)) (ζs : List F) (x : F), ws.length = ζs.length →
      ∃ S : FriStrategy F, layersOf S ζs.length ζs = ws ∧ ∀ l, S.last l = x := by
    intro ws ζs x h
    refine ⟨⟨fun l => ws.getD l.length fun _ => default, fun _ => x⟩, ?_, fun _ => rfl⟩
    refine List.ext_getElem? fun i => ?_
    by_cases hi : i < ζs.length
    · rw [layersOf_getElem _ _ hi]
      show some (ws.getD (ζs.take i).length fun _ => default) = _
      rw [List.length_take, min_eq_left hi.le, List.getD_eq_getElem?_getD, List.getElem?_eq_getElem (by omega),
        Option.getD_some]
    · rw [List.getElem?_eq_none (by rw [layersOf_length]; omega), List.getElem?_eq_none (by omega)]
  induction n with
  | zero =>
    intro ws ζs hl ha h last
    obtain ⟨S, h1, h2⟩ := hex ws ζs last hl
    have := h S h1
    simp only [AllButDraws, List.append_nil] at this
    rw [h2, show a = ζs.length by omega, h1] at this
    exact this
  | succ n ih =>
    intro ws ζs hl ha h w
    have hS : ∀ x : F, ∃ S : FriStrategy F, layersOf S (ζs ++ [x]).length (ζs ++ [x]) = ws ++ [w] ∧
        (¬ FriLost m Fail n (ws ++ [w]) (ζs ++ [x]) → ¬ AllButDraws m n fun l =>
          Fail (layersOf S a (ζs ++ [x] ++ l)) (S.last (ζs ++ [x] ++ l)) (ζs ++ [x] ++ l)) := by
      intro x
      by_cases hx : FriLost m Fail n (ws ++ [w]) (ζs ++ [x])
      · obtain ⟨S, h1, -⟩ := hex (ws ++ [w]) (ζs ++ [x]) default (by simp [hl])
        exact ⟨S, h1, fun h => absurd hx h⟩
      · have := mt (ih (ws ++ [w]) (ζs ++ [x]) (by simp [hl]) (by simp; omega)) hx
        push Not at this
        obtain ⟨S, h1, h2⟩ := this
        exact ⟨S, h1, fun _ => h2⟩
    choose T hT1 hT2 using hS
    let S : FriStrategy F :=
      ⟨fun l => if l.length ≤ ζs.length then (ws ++ [w]).getD l.length fun _ => default
          else (T (l.getD ζs.length default)).layer l, fun l => (T (l.getD ζs.length default)).last l⟩
    have hS1 : layersOf S ζs.length ζs = ws := by
      refine List.ext_getElem? fun i => ?_
      by_cases hi : i < ζs.length
      · rw [layersOf_getElem _ _ hi]
        show some (if (ζs.take i).length ≤ ζs.length then _ else _) = _
        rw [List.length_take, min_eq_left hi.le, if_pos hi.le, List.getD_eq_getElem?_getD,
          List.getElem?_append_left (by omega), List.getElem?_eq_getElem (by omega), Option.getD_some]
      · rw [List.getElem?_eq_none (by rw [layersOf_length]; omega), List.getElem?_eq_none (by omega)]
    refine AllBut.mono le_rfl (h S hS1) fun x hx => ?_
    by_contra hcon
    refine hT2 x hcon (AllButDraws.mono le_rfl n hx fun l hlen hf => ?_)
    rw [show ζs ++ [x] ++ l = ζs ++ x :: l by simp]
    have hat : (ζs ++ x :: l).getD ζs.length default = x := by
      rw [List.getD_eq_getElem?_getD, List.getElem?_append_right le_rfl, Nat.sub_self]
      rfl
    have e1 : S.last (ζs ++ x :: l) = (T x).last (ζs ++ x :: l) := by
      show (T ((ζs ++ x :: l).getD ζs.length default)).last _ = _
      rw [hat]
    have e2 : layersOf S a (ζs ++ x :: l) = layersOf (T x) a (ζs ++ x :: l) := by
      unfold layersOf
      refine List.map_congr_left fun i hi => ?_
      rw [List.mem_range] at hi
      have hil : ((ζs ++ x :: l).take i).length = i := by
        rw [List.length_take, List.length_append, List.length_cons]
        omega
      show (if ((ζs ++ x :: l).take i).length ≤ ζs.length then _ else _) = _
      rw [hil]
      split
      next hle =>
        have h1 : (layersOf (T x) (ζs ++ [x]).length (ζs ++ [x]))[i]? = some ((T x).layer ((ζs ++ [x]).take i)) :=
          layersOf_getElem _ _ (by simp; omega)
        rw [hT1 x] at h1
        rw [List.getD_eq_getElem?_getD, h1, Option.getD_some, List.take_append_of_le_length hle,
          List.take_append_of_le_length hle]
      next hgt =>
        have : ((ζs ++ x :: l).take i).getD ζs.length default = x := by
          rw [List.getD_eq_getElem?_getD, List.getElem?_take_of_lt (by omega), ← List.getD_eq_getElem?_getD, hat]
        rw [this]
    rw [← e1, ← e2]
    exact hf

end alternate

section digests

theorem probability_allBut_digest {n : Nat} {A : FE → Prop} (h : AllBut n A) :
    probability Commitment (fun d => ¬ A (challengeOf d)) ≤ n / 2 ^ 251 := by
  obtain ⟨bad, h1, h2⟩ := h
  refine (probability_mono fun d hd => ?_).trans ((probability_challengeOf bad.toList).trans ?_)
  · rw [Finset.mem_toList]
    by_contra hcon
    exact hd (h2 _ hcon)
  · rw [Finset.length_toList]
    gcongr

/-- Challenges are derived from digests by `co` so that none of `K` values is more likely than the others. -/
def Derives (co : Commitment → FE) (K : ℚ) : Prop :=
  0 < K ∧ ∀ (n : Nat) (A : FE → Prop), AllBut n A → probability Commitment (fun d => ¬ A (co d)) ≤ n / K

theorem derives_challengeOf {K : ℚ} (hK : 0 < K) (hK' : K ≤ 2 ^ 251) : Derives challengeOf K := by
  refine ⟨hK, fun n A h => (probability_allBut_digest h).trans ?_⟩
  gcongr

theorem probability_allButDraws_digest {co : Commitment → FE} {K : ℚ} (hco : Derives co K) {n k : Nat} {A : List FE → Prop}
    (h : AllButDraws n k A) :
    probability (Fin k → Commitment) (fun d => ¬ A (List.ofFn (co ∘ d))) ≤ k * n / K := by
  have := Prog.commitment_nonempty
  have hK := hco.1
  induction k generalizing A with
  | zero =>
    refine (probability_mono (Q := fun _ => False) fun d hd => hd (by rw [List.ofFn_zero]; exact h)).trans ?_
    rw [probability_false]
    simp
  | succ k ih =>
    rw [← probability_equiv (Fin.consEquiv fun _ : Fin (k + 1) => Commitment)]
    have h2 := probability_step (X := Commitment) (Y := Fin k → Commitment)
      (P := fun x => ¬ A (List.ofFn (co ∘ (Fin.consEquiv fun _ : Fin (k + 1) => Commitment) x)))
      (hco.2 _ _ h) (δ := k * n / K) (fun x hx => ?_) (by positivity)
    · refine h2.trans (le_of_eq ?_)
      push_cast
      ring
    · refine (probability_mono fun d hd => ?_).trans (ih hx)
      intro hA
      apply hd
      rw [List.ofFn_succ]
      exact hA

theorem probability_point_digest {n r : Nat} {domains : List FE} {K : ℚ} (hK : K = 2 ^ 251 - domains.length) (hd : 0 < K)
    {A : FE → Prop} (h : AllBut n A) :
    probability (Fin r → Commitment) (fun d => ∃ z, pointOf domains (List.ofFn d) = some z ∧ ¬ A z) ≤ n / K := by
  have hP : (0 : ℚ) < Fintype.card FE := by exact_mod_cast Fintype.card_pos
  have h1 := probability_transfer (X := Fin r → Commitment) (Y := FE) (fun d => pointOf domains (List.ofFn d))
    (κ := Fintype.card FE / K) (by positivity) (fun z => by
      have := probability_pointOf domains rfl (by linarith) r z
      rw [← hK] at this
      refine this.trans (le_of_eq ?_)
      field_simp) fun z => ¬ A z
  refine h1.trans ((mul_le_mul_of_nonneg_left (probability_allBut h) (by positivity)).trans (le_of_eq ?_))
  field_simp

theorem probability_part {X A B : Type} [Fintype X] [Fintype A] [Fintype B] [Nonempty B] (f : X ≃ A × B) (P : A → Prop) :
    probability X (fun x => P (f x).1) = probability A P := by
  rw [← probability_fst_eq (Y := B) P, ← probability_equiv f fun x => P x.1]

end digests

section game
variable {M Ch : Type} (rd : Reading M) (air : Air FE Ch) (d : Domain FE) (a b : Nat) (w : FE) (R m : Nat)

/-- What is settled before the out-of-domain point: the challenges and the columns, and the coefficients of the
constraints. -/
structure Settled (Ch : Type) where
  ch : Ch
  cols : List (Nat → FE)
  αB : List FE
  βB : List FE
  αT : List FE
  βT : List FE

/-- The claims pass the checks. -/
def ClaimsPass (c : Settled Ch) (z : FE) (proof : StarkProof FE) : Prop :=
  proof.traceOodFrameEvaluations.rowWidth = air.context.traceColumns ∧
  proof.traceOodFrameEvaluations.data.length = air.context.transitionOffsets.length * air.context.traceColumns ∧
  step2 air proof d (challengesOf c.ch c.αB c.βB c.αT c.βT z 0 0 []) = .ok true

/-- The DEEP values. -/
def deepOf (c : Settled Ch) (halves : (Nat → FE) × (Nat → FE)) (z : FE) (proof : StarkProof FE) (γe γo : FE)
    (γ : List FE) : Nat → FE :=
  deepWord proof (challengesOf c.ch c.αB c.βB c.αT c.βT z γe γo
      (coeffRows air.context.transitionOffsets.length air.context.traceColumns γ)) d.tracePrimitiveRoot
    (fun s => w ^ s * (air.context.proofOptions.cosetOffset : FE)) c.cols halves.1 halves.2

/-- The query `s` passes. -/
def Answered (deep : Nat → FE) (ws : List (Nat → FE)) (last : FE) (ζs : List FE) (s : Nat) : Prop :=
  ws.getD 0 (fun _ => 0) s = deep s ∧
    QueryPasses a b (air.context.proofOptions.cosetOffset : FE) w (fun i => ws.getD i fun _ => 0) last
      (fun i => ζs.getD i 0) s

/-- More than `R` queries fail. -/
def ManyFail (deep : Nat → FE) (ws : List (Nat → FE)) (last : FE) (ζs : List FE) : Prop :=
  ∃ failing : Finset Nat, R < failing.card ∧ ∀ s ∈ failing, s < 2 ^ (a + b) ∧ ¬ Answered air a b w deep ws last ζs s

/-- The game is lost after the out-of-domain point. -/
def LostPoint (c : Settled Ch) (halves : (Nat → FE) × (Nat → FE)) (z : FE) : Prop :=
  ∀ proof, ClaimsPass air d c z proof → AllBut m fun γe => AllBut m fun γo =>
    AllButDraws m (air.context.traceColumns * air.context.transitionOffsets.length) fun γ =>
      FriLost m (ManyFail air a b w R (deepOf air d w c halves z proof γe γo γ)) a [] []

/-- The game is lost after the coefficients of the constraints. -/
def LostCoeffs (c : Settled Ch) : Prop :=
  ∀ halves, AllBut (4 * 2 ^ a + 3 * 2 ^ (a + b)) fun z => LostPoint air d a b w R m c halves z

variable {d w}

theorem manyFail_of_strategy (ha : 1 ≤ a) {deep : Nat → FE} (S : FriStrategy FE) (ζ : List FE)
    (h : ∃ failing : Finset Nat, R < failing.card ∧ ∀ s ∈ failing, s < 2 ^ (a + b) ∧
      ¬ (S.layer [] s = deep s ∧ S.Passes a b (air.context.proofOptions.cosetOffset : FE) w ζ s)) :
    ManyFail air a b w R deep (layersOf S a ζ) (S.last ζ) ζ := by
  obtain ⟨failing, h1, h2⟩ := h
  refine ⟨failing, h1, fun s hs => ⟨(h2 s hs).1, fun hp => (h2 s hs).2 ?_⟩⟩
  obtain ⟨h3, h4⟩ := hp
  have e : ∀ i < a, (layersOf S a ζ).getD i (fun _ => 0) = S.layer (ζ.take i) := by
    intro i hi
    rw [List.getD_eq_getElem?_getD, layersOf_getElem _ _ hi, Option.getD_some]
  refine ⟨by rw [e 0 (by omega)] at h3; simpa using h3, fun i hi => ?_⟩
  have h5 := h4 i hi
  beta_reduce at h5 ⊢
  rw [e i hi] at h5
  rw [h5]
  split
  next hi' => rw [e _ hi']
  next => rfl

theorem lostCoeffs {ta : TwoAdic FE} (S : Setting air a b) (hd : Domain.new ta air = .ok d)
    (hw : ta.root (a + b) = some w) {ch : Ch}
    {cs : List (MvPolynomial (Nat × Nat) FE)} (hc : PolynomialConstraints air ch cs)
    (hcs : cs.length = air.context.numTransitionConstraints)
    {boundary : List (BoundaryConstraint FE)} (hb : air.boundaryConstraints ch = .ok boundary)
    (hbc : ∀ c ∈ boundary, c.col < air.context.traceColumns ∧ c.step < 2 ^ a)
    {cols : List (Nat → FE)} (hcols : cols.length = air.context.traceColumns) (hR : DecodingRadius a b R m)
    (hno : ¬ DecodesTo d w air.context.proofOptions.cosetOffset a b R cols fun rows =>
      Satisfies air rows air.context.traceColumns ch) :
    AllButDraws 1 boundary.length fun αB => AllButDraws 1 boundary.length fun βB =>
    AllButDraws 1 air.context.numTransitionConstraints fun αT =>
    AllButDraws 1 air.context.numTransitionConstraints fun βT =>
      LostCoeffs air d a b w R m ⟨ch, cols, αB, βB, αT, βT⟩ := by
  refine AllButDraws.mono le_rfl _ (Props.C68_stark_sound S hd hw hc hcs hb hbc hcols hR ?_) fun αB _ h => ?_
  · rintro ⟨polys, hp, hs⟩
    refine hno ⟨polys, hp, ?_⟩
    rw [hp.length, hcols] at hs
    exact hs
  refine AllButDraws.mono le_rfl _ h fun βB _ h => ?_
  refine AllButDraws.mono le_rfl _ h fun αT _ h => ?_
  refine AllButDraws.mono le_rfl _ h fun βT _ h => ?_
  intro halves
  refine AllBut.mono le_rfl (h halves.1 halves.2) fun z h => ?_
  intro proof hp
  refine AllBut.mono le_rfl (h proof hp.1 hp.2.1 hp.2.2) fun γe h => ?_
  refine AllBut.mono le_rfl h fun γo h => ?_
  refine AllButDraws.mono le_rfl _ h fun γ _ h => ?_
  refine friLost_of_strategies (a := a) a [] [] rfl (Nat.zero_add a) fun T _ => ?_
  refine AllButDraws.mono le_rfl _ (h T) fun ζ _ h => ?_
  simp only [List.nil_append]
  exact manyFail_of_strategy air a b R S.rows T ζ h

variable (d w) [Inhabited M] {nb nt k q r : Nat} (Q : List (List FE) → Prop)

/-- The game is lost after the layers and the challenges of FRI, or after all the messages. -/
def LostFri (deep : Nat → FE) (ms : List M) (rs : List (Reply air.numRapChallenges nb nt k q r)) : Prop :=
  if ms.length ≤ a then
    FriLost m (ManyFail air a b w R deep) (a - ms.length) (ms.map rd.layer) (rs.map fun x => challengeOf x.ζ)
  else ∀ x, rs[a]? = some x → ¬ ((air.context.proofOptions.grindingFactor.toNat ≤ 64 ∧
      2 ^ air.context.proofOptions.grindingFactor.toNat ∣ beNat (x.work.val.take 8)) ∧
    ∀ i, Answered air a b w deep ((ms.take a).map rd.layer) (rd.last (ms.getD a default))
      ((rs.take a).map fun x => challengeOf x.ζ) (positionOf (a + b) (x.ι i)))

/-- The game is lost after the out-of-domain point and the messages and replies that follow. -/
def LostClaims (c : Settled Ch) (halves : (Nat → FE) × (Nat → FE)) (z : FE) :
    List M → List (Reply air.numRapChallenges nb nt k q r) → Prop
  | m3 :: ms, r3 :: rs => ClaimsPass air d c z (rd.claims m3) →
      LostFri rd air a b w R m (deepOf air d w c halves z (rd.claims m3) (challengeOf r3.γe) (challengeOf r3.γo)
        (List.ofFn (challengeOf ∘ r3.γ))) ms rs
  | _, _ => LostPoint air d a b w R m c halves z

/-- The game is lost after the coefficients and the messages and replies that follow. -/
def LostHalves (c : Settled Ch) : List M → List (Reply air.numRapChallenges nb nt k q r) → Prop
  | m2 :: ms, r2 :: rs => ∀ z, pointOf (d.ldeRootsOfUnityCoset ++ d.traceRootsOfUnity) (List.ofFn r2.points) = some z →
      LostClaims rd air d a b w R m c (rd.halves m2) z ms rs
  | _, _ => LostCoeffs air d a b w R m c

/-- What is settled by the first two messages and replies. -/
def settledBy (m0 m1 : M) (r0 r1 : Reply air.numRapChallenges nb nt k q r) : Settled Ch :=
  ⟨air.rapChallenges (List.ofFn (challengeOf ∘ r0.ε)), rd.main m0 ++ rd.aux m1, List.ofFn (challengeOf ∘ r1.αB),
    List.ofFn (challengeOf ∘ r1.βB), List.ofFn (challengeOf ∘ r1.αT), List.ofFn (challengeOf ∘ r1.βT)⟩

/-- The game is lost after these messages and replies, if the main columns do not decode to a table with the property. -/
def Lost : List M → List (Reply air.numRapChallenges nb nt k q r) → Prop
  | m0 :: m1 :: ms, r0 :: r1 :: rs => ¬ DecodesTo d w air.context.proofOptions.cosetOffset a b R (rd.main m0) Q →
      LostHalves rd air d a b w R m (settledBy rd air m0 m1 r0 r1) ms rs
  | _, _ => True

variable {d w}

theorem reply_coeffs {e : Nat} {co : Commitment → FE} {K : ℚ} (hco : Derives co K) (A : List FE → List FE → List FE → List FE → Prop)
    (h : AllButDraws 1 nb fun αB => AllButDraws 1 nb fun βB => AllButDraws 1 nt fun αT => AllButDraws 1 nt fun βT =>
      A αB βB αT βT) :
    probability (Reply e nb nt k q r) (fun x => ¬ A (List.ofFn (co ∘ x.αB)) (List.ofFn (co ∘ x.βB))
      (List.ofFn (co ∘ x.αT)) (List.ofFn (co ∘ x.βT))) ≤ (2 * nb + 2 * nt) / K := by
  have := Prog.commitment_nonempty
  have hK := hco.1
  let f : Reply e nb nt k q r ≃ ((Fin nb → Commitment) × (Fin nb → Commitment) × (Fin nt → Commitment) ×
      (Fin nt → Commitment)) × (Fin e → Commitment) × (Fin r → Commitment) × Commitment × Commitment ×
      (Fin k → Commitment) × Commitment × (Fin q → Commitment) × Commitment :=
    ⟨fun x => ((x.αB, x.βB, x.αT, x.βT), x.ε, x.points, x.γe, x.γo, x.γ, x.ζ, x.ι, x.work),
      fun ((αB, βB, αT, βT), ε, points, γe, γo, γ, ζ, ι, work) => ⟨ε, αB, βB, αT, βT, points, γe, γo, γ, ζ, ι, work⟩,
      fun _ => rfl, fun _ => rfl⟩
  have h1 := probability_part f fun y => ¬ A (List.ofFn (co ∘ y.1)) (List.ofFn (co ∘ y.2.1))
      (List.ofFn (co ∘ y.2.2.1)) (List.ofFn (co ∘ y.2.2.2))
  refine (le_of_eq h1).trans ?_
  have h2 : (nb * (1 : Nat) / K + (nb * (1 : Nat) / K + (nt * (1 : Nat) / K + nt * (1 : Nat) / K)) : ℚ)
      ≤ (2 * nb + 2 * nt) / K := by
    rw [show (nb * (1 : Nat) / K + (nb * (1 : Nat) / K + (nt * (1 : Nat) / K + nt * (1 : Nat) / K)) : ℚ)
      = (2 * nb + 2 * nt) / K by push_cast; ring]
  refine le_trans ?_ h2
  refine probability_step (X := Fin nb → Commitment)
    (Y := (Fin nb → Commitment) × (Fin nt → Commitment) × (Fin nt → Commitment))
    (A := fun x => AllButDraws 1 nb fun βB => AllButDraws 1 nt fun αT => AllButDraws 1 nt fun βT =>
      A (List.ofFn (co ∘ x)) βB αT βT)
    (P := fun y => ¬ A (List.ofFn (co ∘ y.1)) (List.ofFn (co ∘ y.2.1)) (List.ofFn (co ∘ y.2.2.1))
      (List.ofFn (co ∘ y.2.2.2)))
    (probability_allButDraws_digest (A := fun x => AllButDraws 1 nb fun βB => AllButDraws 1 nt fun αT =>
      AllButDraws 1 nt fun βT => A x βB αT βT) hco h) (fun αB h => ?_) (by positivity)
  refine probability_step (X := Fin nb → Commitment) (Y := (Fin nt → Commitment) × (Fin nt → Commitment))
    (A := fun x => AllButDraws 1 nt fun αT => AllButDraws 1 nt fun βT =>
      A (List.ofFn (co ∘ αB)) (List.ofFn (co ∘ x)) αT βT)
    (P := fun y => ¬ A (List.ofFn (co ∘ αB)) (List.ofFn (co ∘ y.1)) (List.ofFn (co ∘ y.2.1)) (List.ofFn (co ∘ y.2.2)))
    (probability_allButDraws_digest (A := fun x => AllButDraws 1 nt fun αT => AllButDraws 1 nt fun βT =>
      A (List.ofFn (co ∘ αB)) x αT βT) hco h) (fun βB h => ?_) (by positivity)
  refine probability_step (X := Fin nt → Commitment) (Y := Fin nt → Commitment)
    (A := fun x => AllButDraws 1 nt fun βT => A (List.ofFn (co ∘ αB)) (List.ofFn (co ∘ βB)) (List.ofFn (co ∘ x)) βT)
    (P := fun y => ¬ A (List.ofFn (co ∘ αB)) (List.ofFn (co ∘ βB)) (List.ofFn (co ∘ y.1)) (List.ofFn (co ∘ y.2)))
    (probability_allButDraws_digest (A := fun x => AllButDraws 1 nt fun βT =>
      A (List.ofFn (co ∘ αB)) (List.ofFn (co ∘ βB)) x βT) hco h) (fun αT h => ?_) (by positivity)
  exact probability_allButDraws_digest (A := fun x => A (List.ofFn (co ∘ αB)) (List.ofFn (co ∘ βB))
    (List.ofFn (co ∘ αT)) x) hco h

theorem reply_point {e n : Nat} {domains : List FE} {K : ℚ} (hK : K = 2 ^ 251 - domains.length) (hd : 0 < K)
    {A : FE → Prop} (h : AllBut n A) :
    probability (Reply e nb nt k q r) (fun x => ∃ z, pointOf domains (List.ofFn x.points) = some z ∧ ¬ A z) ≤ n / K := by
  have := Prog.commitment_nonempty
  let f : Reply e nb nt k q r ≃ (Fin r → Commitment) × (Fin e → Commitment) × (Fin nb → Commitment) ×
      (Fin nb → Commitment) × (Fin nt → Commitment) × (Fin nt → Commitment) × Commitment × Commitment ×
      (Fin k → Commitment) × Commitment × (Fin q → Commitment) × Commitment :=
    ⟨fun x => (x.points, x.ε, x.αB, x.βB, x.αT, x.βT, x.γe, x.γo, x.γ, x.ζ, x.ι, x.work),
      fun (points, ε, αB, βB, αT, βT, γe, γo, γ, ζ, ι, work) => ⟨ε, αB, βB, αT, βT, points, γe, γo, γ, ζ, ι, work⟩,
      fun _ => rfl, fun _ => rfl⟩
  exact (le_of_eq (probability_part f fun y => ∃ z, pointOf domains (List.ofFn y) = some z ∧ ¬ A z)).trans
    (probability_point_digest hK hd h)

theorem reply_deep {e m : Nat} {co : Commitment → FE} {K : ℚ} (hco : Derives co K) (A : FE → FE → List FE → Prop)
    (h : AllBut m fun γe => AllBut m fun γo => AllButDraws m k fun γ => A γe γo γ) :
    probability (Reply e nb nt k q r) (fun x => ¬ A (co x.γe) (co x.γo) (List.ofFn (co ∘ x.γ)))
      ≤ (2 + k) * m / K := by
  have := Prog.commitment_nonempty
  have hK := hco.1
  let f : Reply e nb nt k q r ≃ (Commitment × Commitment × (Fin k → Commitment)) × (Fin e → Commitment) ×
      (Fin nb → Commitment) × (Fin nb → Commitment) × (Fin nt → Commitment) × (Fin nt → Commitment) ×
      (Fin r → Commitment) × Commitment × (Fin q → Commitment) × Commitment :=
    ⟨fun x => ((x.γe, x.γo, x.γ), x.ε, x.αB, x.βB, x.αT, x.βT, x.points, x.ζ, x.ι, x.work),
      fun ((γe, γo, γ), ε, αB, βB, αT, βT, points, ζ, ι, work) => ⟨ε, αB, βB, αT, βT, points, γe, γo, γ, ζ, ι, work⟩,
      fun _ => rfl, fun _ => rfl⟩
  have h1 := probability_part f fun y => ¬ A (co y.1) (co y.2.1) (List.ofFn (co ∘ y.2.2))
  refine (le_of_eq h1).trans ?_
  have hn1 : (0 : ℚ) ≤ k * m / K := div_nonneg (mul_nonneg (Nat.cast_nonneg k) (Nat.cast_nonneg m)) hK.le
  have hn2 : (0 : ℚ) ≤ m / K + k * m / K := add_nonneg (div_nonneg (Nat.cast_nonneg m) hK.le) hn1
  have h2 : (m / K + (m / K + k * m / K) : ℚ) ≤ (2 + k) * m / K := by
    rw [show (m / K + (m / K + k * m / K) : ℚ) = (2 + k) * m / K by ring]
  refine le_trans ?_ h2
  refine probability_step (X := Commitment) (Y := Commitment × (Fin k → Commitment))
    (A := fun x => AllBut m fun γo => AllButDraws m k fun γ => A (co x) γo γ)
    (P := fun y => ¬ A (co y.1) (co y.2.1) (List.ofFn (co ∘ y.2.2)))
    (hco.2 m (fun x => AllBut m fun γo => AllButDraws m k fun γ => A x γo γ) h) (fun γe h => ?_) hn2
  refine probability_step (X := Commitment) (Y := Fin k → Commitment)
    (A := fun x => AllButDraws m k fun γ => A (co γe) (co x) γ)
    (P := fun y => ¬ A (co γe) (co y.1) (List.ofFn (co ∘ y.2)))
    (hco.2 m (fun x => AllButDraws m k fun γ => A (co γe) x γ) h) (fun γo h => ?_) hn1
  exact probability_allButDraws_digest (A := fun x => A (co γe) (co γo) x) hco h

theorem reply_fold {e m : Nat} {co : Commitment → FE} {K : ℚ} (hco : Derives co K) {A : FE → Prop} (h : AllBut m A) :
    probability (Reply e nb nt k q r) (fun x => ¬ A (co x.ζ)) ≤ m / K := by
  have := Prog.commitment_nonempty
  let f : Reply e nb nt k q r ≃ Commitment × (Fin e → Commitment) × (Fin nb → Commitment) ×
      (Fin nb → Commitment) × (Fin nt → Commitment) × (Fin nt → Commitment) × (Fin r → Commitment) × Commitment ×
      Commitment × (Fin k → Commitment) × (Fin q → Commitment) × Commitment :=
    ⟨fun x => (x.ζ, x.ε, x.αB, x.βB, x.αT, x.βT, x.points, x.γe, x.γo, x.γ, x.ι, x.work),
      fun (ζ, ε, αB, βB, αT, βT, points, γe, γo, γ, ι, work) => ⟨ε, αB, βB, αT, βT, points, γe, γo, γ, ζ, ι, work⟩,
      fun _ => rfl, fun _ => rfl⟩
  refine (le_of_eq (probability_part f fun y => ¬ A (co y))).trans (hco.2 _ _ h)

theorem reply_queries {e n R : Nat} (hn : n ≤ 64) (g : Nat) {P : Nat → Prop} {failing : Finset Nat}
    (hR : R < failing.card) (h : ∀ s ∈ failing, s < 2 ^ n ∧ ¬ P s) :
    probability (Reply e nb nt k q r) (fun x => (g ≤ 64 ∧ 2 ^ g ∣ beNat (x.work.val.take 8)) ∧
      ∀ i, P (positionOf n (x.ι i))) ≤ 1 / 2 ^ g * (1 - (R + 1) / 2 ^ n) ^ q := by
  have := Prog.commitment_nonempty
  let f : Reply e nb nt k q r ≃ (Commitment × (Fin q → Commitment)) × (Fin e → Commitment) × (Fin nb → Commitment) ×
      (Fin nb → Commitment) × (Fin nt → Commitment) × (Fin nt → Commitment) × (Fin r → Commitment) × Commitment ×
      Commitment × (Fin k → Commitment) × Commitment :=
    ⟨fun x => ((x.work, x.ι), x.ε, x.αB, x.βB, x.αT, x.βT, x.points, x.γe, x.γo, x.γ, x.ζ),
      fun ((work, ι), ε, αB, βB, αT, βT, points, γe, γo, γ, ζ) => ⟨ε, αB, βB, αT, βT, points, γe, γo, γ, ζ, ι, work⟩,
      fun _ => rfl, fun _ => rfl⟩
  refine (le_of_eq (probability_part f fun y => (g ≤ 64 ∧ 2 ^ g ∣ beNat (y.1.val.take 8)) ∧
    ∀ i, P (positionOf n (y.2 i)))).trans ?_
  have hc : failing.card ≤ 2 ^ n := by
    have := Finset.card_le_card (s := failing) (t := Finset.range (2 ^ n)) fun s hs => Finset.mem_range.mpr (h s hs).1
    rwa [Finset.card_range] at this
  have h0 : (0 : ℚ) ≤ 1 - (R + 1) / 2 ^ n := by
    rw [sub_nonneg, div_le_one (by positivity)]
    exact_mod_cast (by omega : R + 1 ≤ 2 ^ n)
  refine probability_and_le (X := Commitment) (Y := Fin q → Commitment) (P := fun d => g ≤ 64 ∧ 2 ^ g ∣ beNat (d.val.take 8))
    (Q := fun ι => ∀ i, P (positionOf n (ι i))) (pow_nonneg h0 q) (Props.probability_meets g)
    (probability_pi_le (P := fun _ d => P (positionOf n d)) h0 fun i => ?_)
  have : Nonempty (Fin (2 ^ n)) := ⟨⟨0, by positivity⟩⟩
  rw [probability_positionOf hn fun s => P s]
  have h1 := probability_queries (q := 1) hR h
  rw [pow_one, ← probability_equiv (Equiv.funUnique (Fin 1) (Fin (2 ^ n))).symm] at h1
  push_cast at h1
  refine (probability_mono fun s hs => ?_).trans h1
  intro i
  exact hs

end game

end Verif
