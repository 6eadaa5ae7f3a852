import Verif.Lemmas.Random

/-!
# Adaptive questions to a random function

A tree of questions, where the next question depends on the answers so far. When no question is asked twice on a
path, the answers of a random function are independent draws, whatever the names of the questions are.
-/

namespace Verif.Random
open Spec Finset Proximity

/-- A tree of questions with answers in `D` and results in `X`. -/
inductive Tree (C D X : Type) : Type
  | leaf (x : X)
  | node (c : C) (k : D → Tree C D X)

namespace Tree
variable {C D X I : Type}

/-- The result when the question `c` is answered by `f (name c)`. -/
def eval (name : C → I) (f : I → D) : Tree C D X → X
  | leaf x => x
  | node c k => eval name f (k (f (name c)))

/-- No question is asked twice on a path, nor one of `S`. -/
def Fresh (name : C → I) : Tree C D X → Set I → Prop
  | leaf _, _ => True
  | node c k, S => name c ∉ S ∧ ∀ d, Fresh name (k d) (insert (name c) S)

open Classical in
/-- The probability of a result when every answer is an independent uniform draw. -/
noncomputable def prob [Fintype D] (P : X → Prop) : Tree C D X → ℚ
  | leaf x => if P x then 1 else 0
  | node _ k => (∑ d, prob P (k d)) / Fintype.card D

theorem eval_update (name : C → I) [DecidableEq I] {i : I} (x : D) (t : Tree C D X) {S : Set I} (h : t.Fresh name S)
    (hi : i ∈ S) (f : I → D) : t.eval name (Function.update f i x) = t.eval name f := by
  induction t generalizing S with
  | leaf => rfl
  | node c k ih =>
    obtain ⟨h1, h2⟩ := h
    have hne : name c ≠ i := fun e => h1 (e ▸ hi)
    rw [eval, eval, Function.update_of_ne hne]
    exact ih _ (h2 _) (Set.mem_insert_of_mem _ hi)

end Tree

/-- Drawing a function is drawing one value and the others. -/
theorem probability_split {I D : Type} [Fintype I] [DecidableEq I] [Fintype D] [Nonempty D] (i : I)
    (Q : D → (I → D) → Prop) :
    probability (I → D) (fun f => Q (f i) f)
      = (∑ x, probability (I → D) fun f => Q x (Function.update f i x)) / Fintype.card D := by
  classical
  simp only [probability_eq]
  rw [← Finset.sum_div, div_div, mul_comm, ← div_div]
  congr 1
  rw [eq_div_iff (by exact_mod_cast Fintype.card_ne_zero), ← Nat.cast_sum, ← Nat.cast_mul]
  congr 1
  rw [← card_univ (α := D), ← Finset.card_product, ← Finset.card_sigma]
  refine Finset.card_bij' (fun a _ => ⟨a.1 i, Function.update a.1 i a.2⟩)
    (fun b _ => (Function.update b.2 i b.1, b.2 i)) ?_ ?_ ?_ ?_
  · rintro ⟨f, y⟩ h
    simp only [mem_product, mem_filter, mem_univ, true_and, and_true, mem_sigma] at h ⊢
    rw [Function.update_idem, Function.update_eq_self]
    exact h
  · rintro ⟨x, f⟩ h
    simp only [mem_product, mem_filter, mem_univ, true_and, and_true, mem_sigma] at h ⊢
    rw [Function.update_self]
    exact h
  · rintro ⟨f, y⟩ h
    simp
  · rintro ⟨x, f⟩ h
    simp

/-- The answers of a random function to questions that are asked once are independent draws. -/
theorem Tree.probability_eval {C D X I : Type} [Fintype I] [DecidableEq I] [Fintype D] [Nonempty D] (name : C → I)
    (P : X → Prop) (t : Tree C D X) {S : Set I} (h : t.Fresh name S) :
    probability (I → D) (fun f => P (t.eval name f)) = t.prob P := by
  classical
  induction t generalizing S with
  | leaf x =>
    rw [prob]
    simp only [eval, probability_eq]
    by_cases hx : P x
    · simp only [hx, filter_true, card_univ, if_true]
      exact div_self (by exact_mod_cast Fintype.card_ne_zero)
    · simp [hx]
  | node c k ih =>
    obtain ⟨h1, h2⟩ := h
    rw [prob]
    simp only [eval]
    rw [probability_split (name c) fun x f => P ((k x).eval name f)]
    congr 1
    refine Finset.sum_congr rfl fun d _ => ?_
    rw [← ih d (h2 d)]
    congr 1
    ext f
    rw [eval_update name d (k d) (h2 d) (Set.mem_insert _ _) f]

end Verif.Random
