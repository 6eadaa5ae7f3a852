import Verif.Spec.Proximity
import Mathlib.Data.Fintype.Pi
import Mathlib.Data.Fintype.BigOperators
import Mathlib.Data.Fin.Tuple.Basic
import Mathlib.Tactic.LinearCombination

/-!
# Lemmas about statements that hold for all but few draws
-/

namespace Verif.Proximity
open Spec Finset
variable {F : Type}

theorem AllBut.mono {n m : Nat} {P Q : F → Prop} (hnm : n ≤ m) (h : AllBut n P) (hPQ : ∀ x, P x → Q x) :
    AllBut m Q := by
  obtain ⟨bad, h1, h2⟩ := h
  exact ⟨bad, h1.trans hnm, fun x hx => hPQ x (h2 x hx)⟩

theorem AllButDraws.mono {n m : Nat} (hnm : n ≤ m) (k : Nat) {P Q : List F → Prop} (h : AllButDraws n k P)
    (hPQ : ∀ l : List F, l.length = k → P l → Q l) : AllButDraws m k Q := by
  induction k generalizing P Q with
  | zero => exact hPQ [] rfl h
  | succ k ih =>
    refine AllBut.mono hnm h fun x hx => ih hx fun l hl hp => hPQ _ (by simp [hl]) hp

theorem draws_true {n : Nat} (k : Nat) {P : List F → Prop} (h : ∀ l : List F, l.length = k → P l) :
    AllButDraws n k P := by
  induction k generalizing P with
  | zero => exact h [] rfl
  | succ k ih => exact ⟨∅, by simp, fun x _ => ih fun l hl => h _ (by simp [hl])⟩

/-- The draws that do not satisfy the statement are few. -/
theorem draws_count [Fintype F] [DecidableEq F] (n k : Nat) {P : List F → Prop} (h : AllButDraws n k P)
    [DecidablePred fun l : Fin k → F => ¬ P (List.ofFn l)] :
    ((univ : Finset (Fin k → F)).filter fun l => ¬ P (List.ofFn l)).card
      ≤ k * n * Fintype.card F ^ (k - 1) := by
  classical
  induction k generalizing P with
  | zero =>
    rw [Finset.card_eq_zero.mpr]
    · exact Nat.zero_le _
    · refine Finset.filter_eq_empty_iff.mpr fun l _ => ?_
      rw [List.ofFn_zero]
      exact not_not.mpr h
  | succ k ih =>
    obtain ⟨bad, hb, hP⟩ := h
    have hsub : ((univ : Finset (Fin (k + 1) → F)).filter fun l => ¬ P (List.ofFn l))
        ⊆ (bad ×ˢ (univ : Finset (Fin k → F))).image (fun x => Fin.cons x.1 x.2) ∪
          (univ : Finset F).biUnion fun x =>
            if x ∈ bad then ∅ else
              (univ.filter fun l : Fin k → F => ¬ P (x :: List.ofFn l)).image fun l => Fin.cons x l := by
      intro l hl
      have hl := (Finset.mem_filter.mp hl).2
      by_cases hx : l 0 ∈ bad
      · refine Finset.mem_union_left _ (Finset.mem_image.mpr ⟨(l 0, Fin.tail l), ?_, Fin.cons_self_tail l⟩)
        exact Finset.mem_product.mpr ⟨hx, Finset.mem_univ _⟩
      · refine Finset.mem_union_right _ (Finset.mem_biUnion.mpr ⟨l 0, Finset.mem_univ _, ?_⟩)
        rw [if_neg hx]
        refine Finset.mem_image.mpr ⟨Fin.tail l, Finset.mem_filter.mpr ⟨Finset.mem_univ _, ?_⟩,
          Fin.cons_self_tail l⟩
        rw [List.ofFn_succ] at hl
        exact hl
    refine (Finset.card_le_card hsub).trans ((Finset.card_union_le _ _).trans ?_)
    have h1 : ((bad ×ˢ (univ : Finset (Fin k → F))).image
        (fun x : F × (Fin k → F) => (Fin.cons x.1 x.2 : Fin (k + 1) → F))).card
        ≤ n * Fintype.card F ^ k := by
      refine Finset.card_image_le.trans ?_
      rw [Finset.card_product, Finset.card_univ, Fintype.card_fun, Fintype.card_fin]
      exact Nat.mul_le_mul_right _ hb
    have h2 : ((univ : Finset F).biUnion fun x =>
            if x ∈ bad then ∅ else
              (univ.filter fun l : Fin k → F => ¬ P (x :: List.ofFn l)).image
                fun l => (Fin.cons x l : Fin (k + 1) → F)).card
        ≤ k * n * Fintype.card F ^ k := by
      refine Finset.card_biUnion_le.trans ?_
      have hle : ∀ x ∈ (univ : Finset F), (if x ∈ bad then (∅ : Finset (Fin (k + 1) → F)) else
              (univ.filter fun l : Fin k → F => ¬ P (x :: List.ofFn l)).image
                fun l => (Fin.cons x l : Fin (k + 1) → F)).card ≤ k * n * Fintype.card F ^ (k - 1) := by
        intro x _
        split
        · simp
        · next hx => exact Finset.card_image_le.trans (ih (hP x hx))
      refine (Finset.sum_le_card_nsmul _ _ _ hle).trans ?_
      rw [Finset.card_univ, smul_eq_mul]
      cases k with
      | zero => simp
      | succ k => rw [Nat.add_sub_cancel, pow_succ]; exact le_of_eq (by ring)
    rw [Nat.add_sub_cancel]
    calc _ ≤ n * Fintype.card F ^ k + k * n * Fintype.card F ^ k := Nat.add_le_add h1 h2
      _ = (k + 1) * n * Fintype.card F ^ k := by ring

variable [Field F] [DecidableEq F]

/-- A linear form with a coefficient other than zero takes a given value for few draws. -/
theorem draws_linear (m : List F) (t : F) (hm : ∃ x ∈ m, x ≠ 0) :
    AllButDraws 1 m.length fun l => t + (List.zipWith (· * ·) m l).sum ≠ 0 := by
  induction m generalizing t with
  | nil => simp at hm
  | cons y m ih =>
    by_cases h : ∃ x ∈ m, x ≠ 0
    · refine ⟨∅, by simp, fun c _ => ?_⟩
      refine AllButDraws.mono le_rfl _ (ih (t + y * c) h) fun l _ hl => ?_
      simpa [add_assoc] using hl
    · push Not at h
      have hy : y ≠ 0 := by
        obtain ⟨x, hx, h0⟩ := hm
        rcases List.mem_cons.mp hx with rfl | hx
        · exact h0
        · exact absurd (h x hx) h0
      refine ⟨{-t / y}, by simp, fun c hc => draws_true _ fun l _ => ?_⟩
      have hz : ∀ l : List F, (List.zipWith (· * ·) m l).sum = 0 := by
        intro l
        refine List.sum_eq_zero fun x hx => ?_
        obtain ⟨u, v, hu, -, rfl⟩ : ∃ u v, u ∈ m ∧ v ∈ l ∧ u * v = x := by
          obtain ⟨i, hi, rfl⟩ := List.mem_iff_getElem.mp hx
          rw [List.length_zipWith] at hi
          exact ⟨m[i], l[i], List.getElem_mem _, List.getElem_mem _, by simp⟩
        rw [h u hu, zero_mul]
      simp only [List.zipWith_cons_cons, List.sum_cons, hz, add_zero]
      intro h0
      apply hc
      rw [Finset.mem_singleton, eq_div_iff hy]
      linear_combination h0

end Verif.Proximity
