import Verif.Spec.FiatShamir
import Verif.Lemmas.Search

/-!
# Attempts in all the rounds of a game whose verifier is a random function
-/

namespace Verif
open Verif.Spec Verif.Proximity Random Finset

section general
variable {X D : Type} [Fintype X] [DecidableEq X] [Fintype D] [Nonempty D]

/-- The value of a random function at a point, when the event may depend on the other values too. -/
theorem probability_at_le (x : X) (E : (X → D) → Prop) (hE : ∀ K d, E (Function.update K x d) ↔ E K)
    (B : (X → D) → Prop) {p : ℚ} (hp : ∀ K, probability D (fun d => B (Function.update K x d)) ≤ p) :
    probability (X → D) (fun K => E K ∧ B K) ≤ probability (X → D) E * p := by
  classical
  obtain ⟨d0⟩ := ‹Nonempty D›
  let e : (X → D) ≃ ({ y // y ≠ x } → D) × D := (Equiv.funSplitAt x D).trans (Equiv.prodComm _ _)
  have hu : ∀ (r : { y // y ≠ x } → D) d, e.symm (r, d) = Function.update (e.symm (r, d0)) x d := by
    intro r d
    funext y
    by_cases hy : y = x
    · subst hy
      simp [e, Equiv.funSplitAt]
    · simp [e, Equiv.funSplitAt, hy]
  let G : ({ y // y ≠ x } → D) → Prop := fun r => E (e.symm (r, d0))
  have hG : ∀ r d, E (e.symm (r, d)) ↔ G r := by
    intro r d
    rw [hu, hE]
  have h1 : probability (X → D) E = probability ({ y // y ≠ x } → D) G := by
    rw [← probability_equiv e.symm E, ← probability_fst_eq (Y := D) G]
    congr 1
    funext y
    exact propext (hG y.1 y.2)
  rw [h1, ← probability_equiv e.symm, probability_prod, probability_eq, div_mul_eq_mul_div]
  refine div_le_div_of_nonneg_right ?_ (by positivity)
  rw [← Finset.sum_boole, Finset.sum_mul]
  refine Finset.sum_le_sum fun r _ => ?_
  split
  next hr =>
    rw [one_mul]
    refine (probability_mono fun d h => ?_).trans (hp (e.symm (r, d0)))
    rw [← hu]
    exact h.2
  next hr =>
    rw [zero_mul]
    refine (probability_mono (Q := fun _ => False) fun d h => hr ((hG r d).1 h.1)).trans ?_
    rw [probability_false]

/-- A point that has not been asked for. -/
theorem probability_unasked (ask key : List D → X) (B : X → (X → D) → Prop) {p : ℚ}
    (hp : ∀ l K, probability D (fun d => B (key l) (Function.update K (key l) d)) ≤ p) (i : Nat) :
    probability (X → D) (fun K => (∀ j < i, ask (answers K ask j) ≠ key (answers K ask i)) ∧
      B (key (answers K ask i)) K) ≤ p := by
  classical
  let E (x : X) (K : X → D) : Prop := key (answers K ask i) = x ∧ ∀ j < i, ask (answers K ask j) ≠ x
  have hE : ∀ x K d, E x (Function.update K x d) ↔ E x K := by
    have h : ∀ x K d, E x K → E x (Function.update K x d) := by
      rintro x K d ⟨h1, h2⟩
      refine ⟨by rw [answers_update K ask x d h2]; exact h1, fun j hj => ?_⟩
      rw [answers_update K ask x d fun k hk => h2 k (by omega)]
      exact h2 j hj
    intro x K d
    refine ⟨fun hx => ?_, h x K d⟩
    have := h x (Function.update K x d) (K x) hx
    rwa [Function.update_idem, Function.update_eq_self] at this
  have hp0 : 0 ≤ p := (probability_nonneg _).trans (hp [] fun _ => Classical.arbitrary D)
  have hsum : ∀ P : X → (X → D) → Prop, (∀ x y K, P x K → P y K → x = y) →
      probability (X → D) (fun K => ∃ x, P x K) = ∑ x, probability (X → D) (P x) := by
    intro P hP
    simp only [probability_eq]
    rw [← Finset.sum_div, ← Nat.cast_sum, ← card_biUnion]
    · congr 3
      ext K
      simp
    · intro x _ y _ hxy
      rw [Function.onFun, disjoint_left]
      intro K h1 h2
      simp only [mem_filter, mem_univ, true_and] at h1 h2
      exact hxy (hP x y K h1 h2)
  calc probability (X → D) (fun K => (∀ j < i, ask (answers K ask j) ≠ key (answers K ask i)) ∧
        B (key (answers K ask i)) K)
      = probability (X → D) (fun K => ∃ x, E x K ∧ B x K) := by
        congr 1
        funext K
        refine propext ⟨fun ⟨h1, h2⟩ => ⟨_, ⟨rfl, h1⟩, h2⟩, ?_⟩
        rintro ⟨x, ⟨rfl, h1⟩, h2⟩
        exact ⟨h1, h2⟩
    _ = ∑ x, probability (X → D) (fun K => E x K ∧ B x K) :=
        hsum _ fun x y K h1 h2 => h1.1.1.symm.trans h2.1.1
    _ ≤ ∑ x, probability (X → D) (E x) * p := by
        refine Finset.sum_le_sum fun x _ => ?_
        by_cases hx : ∃ l, key l = x
        · obtain ⟨l, rfl⟩ := hx
          exact probability_at_le _ (E (key l)) (hE (key l)) (B (key l)) (hp l)
        · refine (probability_mono (Q := fun _ => False) fun K h => hx ⟨_, h.1.1⟩).trans ?_
          rw [probability_false]
          exact mul_nonneg (probability_nonneg _) hp0
    _ = probability (X → D) (fun K => ∃ x, E x K) * p := by
        rw [hsum _ fun x y K h1 h2 => h1.1.symm.trans h2.1, Finset.sum_mul]
    _ ≤ 1 * p := mul_le_mul_of_nonneg_right (probability_le_one _) hp0
    _ = p := one_mul _

theorem probability_exists_le {Ω J : Type} [Fintype Ω] [Nonempty Ω] (s : Finset J) (P : J → Ω → Prop) :
    probability Ω (fun ω => ∃ j ∈ s, P j ω) ≤ ∑ j ∈ s, probability Ω (P j) := by
  classical
  induction s using Finset.induction_on with
  | empty =>
    simp only [Finset.notMem_empty, false_and, exists_false, Finset.sum_empty]
    rw [probability_false]
  | insert x s hx ih =>
    rw [Finset.sum_insert hx]
    refine (probability_mono (Q := fun ω => P x ω ∨ ∃ j ∈ s, P j ω) ?_).trans ((probability_or _ _).trans ?_)
    · rintro ω ⟨j, hj, h⟩
      rcases Finset.mem_insert.1 hj with rfl | hj
      · exact .inl h
      · exact .inr ⟨j, hj, h⟩
    · gcongr

/-- An adaptive search for a point that is bad in itself or has a part that is. -/
theorem probability_search_parts (ask : List D → X) (L : Nat) (part : Nat → X → X)
    (hpart : ∀ j x, part j (part j x) = part j x) (B : Nat → X → (X → D) → Prop) (p : Nat → ℚ)
    (hp : ∀ j < L, ∀ x K, probability D (fun d => B j (part j x) (Function.update K (part j x) d)) ≤ p j) (N : Nat) :
    probability (X → D) (fun K => ∃ i < N, ∃ j < L, B j (part j (ask (answers K ask i))) K)
      ≤ N * ∑ j ∈ range L, p j := by
  classical
  have h1 : ∀ i, probability (X → D) (fun K => ∃ j ∈ range L,
      (∀ i' < i, ask (answers K ask i') ≠ part j (ask (answers K ask i))) ∧ B j (part j (ask (answers K ask i))) K)
      ≤ ∑ j ∈ range L, p j := by
    intro i
    refine (probability_exists_le _ _).trans (Finset.sum_le_sum fun j hj => ?_)
    exact probability_unasked ask (fun l => part j (ask l)) (B j) (fun l K => hp j (mem_range.1 hj) _ K) i
  have h2 : probability (X → D) (fun K => ∃ i ∈ range N, ∃ j ∈ range L,
      (∀ i' < i, ask (answers K ask i') ≠ part j (ask (answers K ask i))) ∧ B j (part j (ask (answers K ask i))) K)
      ≤ N * ∑ j ∈ range L, p j := by
    refine (probability_exists_le _ _).trans ((Finset.sum_le_sum fun i _ => h1 i).trans ?_)
    rw [Finset.sum_const, card_range, nsmul_eq_mul]
  refine (probability_mono fun K hK => ?_).trans h2
  obtain ⟨h3, j, hj, h4⟩ := Nat.find_spec hK
  refine ⟨Nat.find hK, mem_range.2 h3, j, mem_range.2 hj, fun i hi he => ?_, h4⟩
  refine Nat.find_min hK hi ⟨hi.trans h3, j, hj, ?_⟩
  rw [he, hpart]
  exact h4

end general

section rounds
variable {M D : Type}

@[simp] theorem told_first_val {n : Nat} (l : Told M n) (j : Nat) : (l.first j).val = l.val.take j := rfl

theorem told_first_first {n : Nat} (l : Told M n) (i j : Nat) : (l.first j).first i = l.first (min i j) :=
  Subtype.ext (by simp [List.take_take])

theorem told_first_self {n : Nat} (l : Told M n) {j : Nat} (h : l.val.length ≤ j) : l.first j = l :=
  Subtype.ext (by simp [List.take_of_length_le h])

/-- What the random function gives for the first messages, one after the other. -/
def repliesTo {n : Nat} (H : Told M n → D) (l : Told M n) : List D :=
  (List.range l.val.length).map fun j => H (l.first (j + 1))

@[simp] theorem repliesTo_length {n : Nat} (H : Told M n → D) (l : Told M n) :
    (repliesTo H l).length = l.val.length := by simp [repliesTo]

theorem repliesTo_getElem {n : Nat} (H : Told M n → D) (l : Told M n) {j : Nat} (h : j < l.val.length) :
    (repliesTo H l)[j]? = some (H (l.first (j + 1))) := by
  simp [repliesTo, List.getElem?_range h]

/-- If every round leaves a lost game lost but for a small probability, then searching for messages with which the game is
not lost succeeds with at most the sum of these probabilities for every attempt. -/
theorem round_by_round [Fintype M] [DecidableEq M] [Fintype D] [Nonempty D] {n : Nat} (lost : List M → List D → Prop) (p : Nat → ℚ)
    (hp0 : ∀ j < n, 0 ≤ p j) (h0 : lost [] [])
    (hstep : ∀ l rs, l.length = rs.length → l.length < n → lost l rs →
      ∀ m, probability D (fun d => ¬ lost (l ++ [m]) (rs ++ [d])) ≤ p l.length) (ask : List D → Told M n) (N : Nat) :
    probability (Told M n → D) (fun H => ∃ i < N,
      ¬ lost (ask (answers H ask i)).val (repliesTo H (ask (answers H ask i))))
      ≤ N * ∑ j ∈ range n, p j := by
  classical
  have hs := probability_search_parts (X := Told M n) (D := D) ask n (fun j l => l.first (j + 1))
    (fun j x => by rw [told_first_first, min_self])
    (fun j l H => l.val.length = j + 1 ∧ lost (l.first j).val (repliesTo H (l.first j)) ∧ ¬ lost l.val (repliesTo H l))
    p ?_ N
  · refine (probability_mono fun H hH => ?_).trans hs
    obtain ⟨i, hi, h⟩ := hH
    refine ⟨i, hi, ?_⟩
    generalize ask (answers H ask i) = l at h
    by_contra hcon
    push Not at hcon
    have hall : ∀ j ≤ l.val.length, lost (l.first j).val (repliesTo H (l.first j)) := by
      intro j
      induction j with
      | zero =>
        intro _
        simpa [repliesTo] using h0
      | succ j ih =>
        intro hj
        refine hcon j (by have := l.property; omega) (by simp; omega) ?_
        rw [told_first_first, min_eq_left (by omega)]
        exact ih (by omega)
    have := hall _ le_rfl
    rw [told_first_self l le_rfl] at this
    exact h this
  · intro j hj x H
    generalize x.first (j + 1) = y
    by_cases hl : y.val.length = j + 1
    swap
    · refine (probability_mono (Q := fun _ => False) fun d h => hl h.1).trans ?_
      rw [probability_false]
      exact hp0 j hj
    have hne : ∀ i ≤ j, y.first i ≠ y := by
      intro i hi he
      have := congrArg (fun z : Told M n => z.val.length) he
      simp only [told_first_val, List.length_take] at this
      omega
    have hr : ∀ d, repliesTo (Function.update H y d) (y.first j) = repliesTo H (y.first j) := by
      intro d
      unfold repliesTo
      refine List.map_congr_left fun i hi => ?_
      rw [List.mem_range, told_first_val, List.length_take] at hi
      rw [told_first_first, Function.update_of_ne (hne _ (by omega))]
    have hr2 : ∀ d, repliesTo (Function.update H y d) y = repliesTo H (y.first j) ++ [d] := by
      intro d
      rw [← hr d]
      unfold repliesTo
      rw [show (y.first j).val.length = j by rw [told_first_val, List.length_take, hl]; omega, hl, List.range_succ,
        List.map_append]
      congr 1
      · refine List.map_congr_left fun i hi => ?_
        rw [List.mem_range] at hi
        rw [told_first_first, min_eq_left (by omega)]
      · simp only [List.map_cons, List.map_nil]
        rw [told_first_self y hl.le, Function.update_self]
    obtain ⟨m, hv⟩ : ∃ m, y.val = (y.first j).val ++ [m] := by
      have hj' : j < y.val.length := by omega
      refine ⟨y.val[j], ?_⟩
      rw [told_first_val, ← List.take_succ_eq_append_getElem hj', List.take_of_length_le hl.le]
    by_cases hlost : lost (y.first j).val (repliesTo H (y.first j))
    · have := hstep _ _ (by simp) (by simp; omega) hlost m
      rw [show (y.first j).val.length = j by rw [told_first_val, List.length_take, hl]; omega] at this
      refine (probability_mono fun d h => ?_).trans this
      have h3 := h.2.2
      rw [hr2] at h3
      rw [← hv]
      exact h3
    · refine (probability_mono (Q := fun _ => False) fun d h => hlost ?_).trans ?_
      · have := h.2.1
        rwa [hr] at this
      · rw [probability_false]
        exact hp0 j hj

end rounds

end Verif
