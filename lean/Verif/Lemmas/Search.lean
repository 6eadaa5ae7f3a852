import Verif.Spec.Work
import Verif.Lemmas.Derivation
import Verif.Lemmas.Complete
import Mathlib.Logic.Equiv.Fin.Basic
import Mathlib.Logic.Equiv.Prod

/-!
# Searching a random function
-/

namespace Verif
open Verif.Spec Verif.Proximity Random Finset

section search
variable {X D : Type} [Fintype X] [DecidableEq X] [Fintype D] [Nonempty D]

/-- The value of a random function at a point is independent of what does not depend on it. -/
theorem probability_at (x : X) (E : (X → D) → Prop) (hE : ∀ K d, E (Function.update K x d) ↔ E K) (B : D → Prop) :
    probability (X → D) (fun K => E K ∧ B (K x)) = probability (X → D) E * probability D B := by
  classical
  obtain ⟨d0⟩ := ‹Nonempty D›
  let e : (X → D) ≃ D × ({ y // y ≠ x } → D) := Equiv.funSplitAt x D
  let G : ({ y // y ≠ x } → D) → Prop := fun r => E (e.symm (d0, r))
  have hu : ∀ K : X → D, Function.update K x d0 = e.symm (d0, (e K).2) := by
    intro K
    funext y
    by_cases hy : y = x
    · subst hy
      simp [e, Equiv.funSplitAt]
    · simp [e, Equiv.funSplitAt, hy]
  have hG : ∀ K, E K ↔ G (e K).2 := by
    intro K
    show E K ↔ E (e.symm (d0, (e K).2))
    rw [← hu, hE]
  have h1 : probability (X → D) E = probability ({ y // y ≠ x } → D) G := by
    have := probability_equiv e fun p => G p.2
    rw [show (fun K => G (e K).2) = E from funext fun K => propext (hG K).symm] at this
    rw [this, ← probability_equiv (Equiv.prodComm ({ y // y ≠ x } → D) D) fun p => G p.2]
    exact probability_fst_eq G
  rw [h1]
  have h2 := probability_equiv e fun p => G p.2 ∧ B p.1
  rw [show (fun K => G (e K).2 ∧ B (e K).1) = fun K => E K ∧ B (K x) from
    funext fun K => propext (and_congr_left' (hG K).symm)] at h2
  rw [h2, probability_eq, probability_eq, probability_eq,
    show (univ.filter fun p : D × ({ y // y ≠ x } → D) => G p.2 ∧ B p.1) = (univ.filter B) ×ˢ (univ.filter G) by
      ext p
      simp [and_comm],
    card_product, Fintype.card_prod, Nat.cast_mul, Nat.cast_mul]
  rw [mul_comm ((_ : ℚ) / _), div_mul_div_comm]

/-- The answers do not depend on the value at a point that was not asked. -/
theorem answers_update (K : X → D) (ask : List D → X) (x : X) (d : D) {n : Nat}
    (h : ∀ i < n, ask (answers K ask i) ≠ x) : answers (Function.update K x d) ask n = answers K ask n := by
  induction n with
  | zero => rfl
  | succ n ih =>
    have := ih fun i hi => h i (by omega)
    rw [answers, answers, this, Function.update_of_ne (h n (by omega))]

/-- A new question. -/
theorem probability_new (ask : List D → X) (B : X → D → Prop) {p : ℚ} (hp : ∀ x, probability D (B x) ≤ p) (i : Nat) :
    probability (X → D) (fun K => (∀ j < i, ask (answers K ask j) ≠ ask (answers K ask i)) ∧
      B (ask (answers K ask i)) (K (ask (answers K ask i)))) ≤ p := by
  classical
  let E (x : X) (K : X → D) : Prop := ask (answers K ask i) = x ∧ ∀ j < i, ask (answers K ask j) ≠ x
  have hE : ∀ x K d, E x (Function.update K x d) ↔ E x K := by
    have h : ∀ x K d, E x K → E x (Function.update K x d) := by
      rintro x K d ⟨h1, h2⟩
      refine ⟨by rw [answers_update K ask x d h2]; exact h1, fun j hj => ?_⟩
      rw [answers_update K ask x d fun k hk => h2 k (by omega)]
      exact h2 j hj
    intro x K d
    refine ⟨fun hx => ?_, h x K d⟩
    have := h x (Function.update K x d) (K x) hx
    rwa [Function.update_idem, Function.update_eq_self] at this
  have hp0 : 0 ≤ p := (probability_nonneg _).trans (hp (ask []))
  have hD : (0 : ℚ) < Fintype.card (X → D) := by exact_mod_cast Fintype.card_pos
  have hsum : ∀ P : X → (X → D) → Prop, (∀ x y K, P x K → P y K → x = y) →
      probability (X → D) (fun K => ∃ x, P x K) = ∑ x, probability (X → D) (P x) := by
    intro P hP
    simp only [probability_eq]
    rw [← Finset.sum_div, ← Nat.cast_sum, ← card_biUnion]
    · congr 3
      ext K
      simp
    · intro x _ y _ hxy
      rw [Function.onFun, disjoint_left]
      intro K h1 h2
      simp only [mem_filter, mem_univ, true_and] at h1 h2
      exact hxy (hP x y K h1 h2)
  calc probability (X → D) (fun K => (∀ j < i, ask (answers K ask j) ≠ ask (answers K ask i)) ∧
        B (ask (answers K ask i)) (K (ask (answers K ask i))))
      = probability (X → D) (fun K => ∃ x, E x K ∧ B x (K x)) := by
        congr 1
        funext K
        refine propext ⟨fun ⟨h1, h2⟩ => ⟨_, ⟨rfl, h1⟩, h2⟩, ?_⟩
        rintro ⟨x, ⟨rfl, h1⟩, h2⟩
        exact ⟨h1, h2⟩
    _ = ∑ x, probability (X → D) (E x) * probability D (B x) := by
        rw [hsum _ fun x y K h1 h2 => h1.1.1.symm.trans h2.1.1]
        exact Finset.sum_congr rfl fun x _ => probability_at x (E x) (hE x) (B x)
    _ ≤ ∑ x, probability (X → D) (E x) * p :=
        Finset.sum_le_sum fun x _ => mul_le_mul_of_nonneg_left (hp x) (probability_nonneg _)
    _ = probability (X → D) (fun K => ∃ x, E x K) * p := by
        rw [hsum _ fun x y K h1 h2 => h1.1.symm.trans h2.1, Finset.sum_mul]
    _ ≤ 1 * p := mul_le_mul_of_nonneg_right (probability_le_one _) hp0
    _ = p := one_mul _

/-- An adaptive search finds an answer with a property with at most the probability of that property for every
question. -/
theorem probability_search (ask : List D → X) (B : X → D → Prop) {p : ℚ} (hp : ∀ x, probability D (B x) ≤ p) (n : Nat) :
    probability (X → D) (fun K => ∃ i < n, B (ask (answers K ask i)) (K (ask (answers K ask i)))) ≤ n * p := by
  classical
  have key : ∀ m : Nat, probability (X → D) (fun K => ∃ i < m, (∀ j < i, ask (answers K ask j) ≠ ask (answers K ask i)) ∧
      B (ask (answers K ask i)) (K (ask (answers K ask i)))) ≤ m * p := by
    intro m
    induction m with
    | zero =>
      refine (probability_mono (Q := fun _ => False) fun K ⟨i, hi, _⟩ => absurd hi (Nat.not_lt_zero i)).trans ?_
      rw [probability_false]
      simp
    | succ m ih =>
      refine (probability_mono (Q := fun K => (∃ i < m, (∀ j < i, ask (answers K ask j) ≠ ask (answers K ask i)) ∧
        B (ask (answers K ask i)) (K (ask (answers K ask i)))) ∨
        ((∀ j < m, ask (answers K ask j) ≠ ask (answers K ask m)) ∧
        B (ask (answers K ask m)) (K (ask (answers K ask m))))) ?_).trans ((probability_or _ _).trans ?_)
      · rintro K ⟨i, hi, h⟩
        rcases Nat.lt_succ_iff_lt_or_eq.mp hi with hi | rfl
        · exact .inl ⟨i, hi, h⟩
        · exact .inr h
      · have := probability_new ask B hp m
        push_cast
        linarith
  refine (probability_mono fun K hK => ?_).trans (key n)
  obtain ⟨h1, h2⟩ := Nat.find_spec hK
  refine ⟨Nat.find hK, h1, fun j hj he => ?_, h2⟩
  exact Nat.find_min hK hj ⟨hj.trans h1, by rw [he]; exact h2⟩

end search

/-- The first eight bytes of a digest end in `g` zero bits with probability `2^-g`. -/
theorem probability_hit {g : Nat} (hg : g ≤ 64) :
    probability Commitment (fun d => 2 ^ g ∣ beNat (d.val.take 8)) = 1 / 2 ^ g := by
  classical
  have h := probability_positionOf hg fun x => x = ⟨0, by positivity⟩
  have e : ∀ d : Commitment, positionOf g d = ⟨0, by positivity⟩ ↔ 2 ^ g ∣ beNat (d.val.take 8) := by
    intro d
    rw [Fin.ext_iff, Nat.dvd_iff_mod_eq_zero]
    rfl
  simp only [e] at h
  rw [h, probability_eq, Fintype.card_fin, Finset.filter_eq']
  simp

section seed
variable {F T Ch : Type} [Field F] [DecidableEq F]

/-- The seed of the proof of work in the first step of the verifier. -/
noncomputable def seedOf (env : Env F T) (air : Air F Ch) (proof : StarkProof F) (domain : Domain F) (t : T) :
    Outcome Empty Commitment := do
  let root0 ← index proof.ldeTraceMerkleRoots 0
  let t := env.tr.append t root0.val
  let rap := buildRapChallenges env air t
  let t := match proof.ldeTraceMerkleRoots[1]? with
    | some root => env.tr.append rap.2 root.val
    | none => rap.2
  let boundary ← air.boundaryConstraints rap.1
  let alphasB := env.samples boundary.length t
  let betasB := env.samples boundary.length alphasB.2
  let alphasT := env.samples air.context.numTransitionConstraints betasB.2
  let betasT := env.samples air.context.numTransitionConstraints alphasT.2
  let t := env.tr.append betasT.2 proof.compositionPolyRoot.val
  let z ← Outcome.ofOptionUnwrap (env.tr.sampleZOod env.ofDigest domain.ldeRootsOfUnityCoset
    domain.traceRootsOfUnity t)
  let t := env.appendField z.2 proof.compositionPolyEvenOodEvaluation
  let t := env.appendField t proof.compositionPolyOddOodEvaluation
  let t ← appendFrame env proof.traceOodFrameEvaluations t
  let gammaEven := env.sample t
  let gammaOdd := env.sample gammaEven.2
  let rows := sampleRows env air.context.transitionOffsets.length air.context.traceColumns gammaOdd.2
  let zetas := sampleZetas env proof.friLayersMerkleRoots rows.2
  let t := env.appendField zetas.2 proof.friLastValue
  return (env.tr.challenge t).1

theorem step1_seed {env : Env F T} {air : Air F Ch} {proof : StarkProof F} {d : Domain F} {t t' : T}
    {c : Challenges F Ch} (h : step1 env air proof d t = .ok (c, t')) :
    ∃ seed, seedOf env air proof d t = .ok seed ∧
      c.leadingZerosCount = Grinding.leadingZerosOf env.keccak seed proof.nonce := by
  unfold step1 at h
  simp only [Outcome.bind_eq_ok, Outcome.pure_eq, Outcome.ok.injEq, Prod.mk.injEq] at h
  obtain ⟨root0, e1, boundary, e2, z, e3, t7, e4, io, e5, rfl, -⟩ := h
  refine ⟨_, ?_, rfl⟩
  unfold seedOf
  simp only [Outcome.bind_eq_ok, Outcome.pure_eq]
  exact ⟨root0, e1, boundary, e2, z, e3, t7, e4, rfl⟩

theorem sampleRows_working (env : Env F T) (K : WorkMessage → Commitment) (offsets k : Nat) (t : T) :
    sampleRows (working env K) offsets k t = sampleRows env offsets k t := by
  induction k generalizing t with
  | zero => rfl
  | succ k ih =>
    unfold sampleRows
    simp only [ih]
    rfl

theorem sampleZetas_working (env : Env F T) (K : WorkMessage → Commitment) (roots : List Commitment) (t : T) :
    sampleZetas (working env K) roots t = sampleZetas env roots t := by
  induction roots generalizing t with
  | nil => rfl
  | cons root roots ih =>
    unfold sampleZetas
    simp only [ih]
    rfl

theorem seedOf_working (env : Env F T) (K : WorkMessage → Commitment) (air : Air F Ch) (proof : StarkProof F)
    (d : Domain F) (t : T) : seedOf (working env K) air proof d t = seedOf env air proof d t := by
  unfold seedOf
  simp only [sampleRows_working, sampleZetas_working]
  rfl

end seed
end Verif
