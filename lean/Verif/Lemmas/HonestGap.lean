import Verif.Lemmas.HonestSat
import Verif.Lemmas.CairoSound

/-! The memory of the trace of an honest run, whatever its output segment. -/

namespace Verif.ExecTrace
open CairoAir Spec

/-- A sorted memory in which each address is the previous one, with its value, or its successor. -/
theorem memory_of_steps (S all : List (FE × FE)) (hs : S.Pairwise (fun x y => x.1.val ≤ y.1.val))
    (hp : S.Perm all)
    (hstep : ∀ k, k + 1 < S.length →
      ((S.getD (k + 1) (0, 0)).1 = (S.getD k (0, 0)).1 ∧ (S.getD (k + 1) (0, 0)).2 = (S.getD k (0, 0)).2) ∨
      (S.getD (k + 1) (0, 0)).1 = (S.getD k (0, 0)).1 + 1) :
    (∀ p ∈ all, ∀ q ∈ all, p.1 = q.1 → p.2 = q.2) ∧
    ∀ x : Nat, (∃ p ∈ all, p.1.val < x) → (∃ p ∈ all, x < p.1.val) → ∃ p ∈ all, p.1.val = x := by
  have hle : ∀ i j, i ≤ j → j < S.length → (S.getD i (0, 0)).1.val ≤ (S.getD j (0, 0)).1.val := by
    intro i j hij hj
    rcases Nat.eq_or_lt_of_le hij with rfl | hij
    · exact le_rfl
    · rw [List.getD_eq_getElem _ _ (by omega), List.getD_eq_getElem _ _ hj]
      exact List.pairwise_iff_getElem.1 hs i j (by omega) hj hij
  have hval : ∀ k, k + 1 < S.length → (S.getD (k + 1) (0, 0)).1.val ≤ (S.getD k (0, 0)).1.val + 1 := by
    intro k hk
    rcases hstep k hk with ⟨h, -⟩ | h
    · rw [h]; omega
    · rw [h]
      exact (ZMod.val_add_le _ _).trans (by rw [ZMod.val_one''  (by decide)])
  constructor
  · have key : ∀ d i, i + d < S.length → (S.getD i (0, 0)).1 = (S.getD (i + d) (0, 0)).1 →
        (S.getD i (0, 0)).2 = (S.getD (i + d) (0, 0)).2 := by
      intro d
      induction d with
      | zero => intro i _ _; rfl
      | succ d ih =>
        intro i hi he
        have h1 := hle i (i + d) (by omega) (by omega)
        have h2 := hle (i + d) (i + (d + 1)) (by omega) hi
        rw [← he] at h2
        have e : (S.getD i (0, 0)).1 = (S.getD (i + d) (0, 0)).1 := ZMod.val_injective P (by omega)
        rw [ih i (by omega) e]
        rcases hstep (i + d) hi with ⟨-, h⟩ | h
        · exact h.symm
        · rw [show i + d + 1 = i + (d + 1) from rfl, ← he, e] at h
          exact absurd (left_eq_add.1 h) one_ne_zero
    intro p hpa q hqa hpq
    obtain ⟨i, hi, rfl⟩ := List.mem_iff_getElem.1 (hp.mem_iff.2 hpa)
    obtain ⟨j, hj, rfl⟩ := List.mem_iff_getElem.1 (hp.mem_iff.2 hqa)
    rcases Nat.le_total i j with h | h
    · have := key (j - i) i (by omega)
      rw [show i + (j - i) = j by omega, List.getD_eq_getElem _ _ hi, List.getD_eq_getElem _ _ hj] at this
      exact this hpq
    · have := key (i - j) j (by omega)
      rw [show j + (i - j) = i by omega, List.getD_eq_getElem _ _ hi, List.getD_eq_getElem _ _ hj] at this
      exact (this hpq.symm).symm
  · rintro x ⟨p, hpa, hpx⟩ ⟨q, hqa, hqx⟩
    obtain ⟨i, hi, rfl⟩ := List.mem_iff_getElem.1 (hp.mem_iff.2 hpa)
    obtain ⟨j, hj, rfl⟩ := List.mem_iff_getElem.1 (hp.mem_iff.2 hqa)
    have key : ∀ d, i + d < S.length → x ≤ (S.getD (i + d) (0, 0)).1.val →
        ∃ k < S.length, (S.getD k (0, 0)).1.val = x := by
      intro d
      induction d with
      | zero =>
        intro h1 h2
        rw [Nat.add_zero, List.getD_eq_getElem _ _ hi] at h2
        omega
      | succ d ih =>
        intro h1 h2
        by_cases h : x ≤ (S.getD (i + d) (0, 0)).1.val
        · exact ih (by omega) h
        · have := hval (i + d) h1
          exact ⟨i + (d + 1), h1, by rw [← Nat.add_assoc] at h2 ⊢; omega⟩
    have hij : i ≤ j := by
      by_contra h
      have := hle j i (by omega) hi
      rw [List.getD_eq_getElem _ _ hi, List.getD_eq_getElem _ _ hj] at this
      omega
    obtain ⟨k, hk, h⟩ := key (j - i) (by omega) (by
      rw [show i + (j - i) = j by omega, List.getD_eq_getElem _ _ hj]; omega)
    rw [List.getD_eq_getElem _ _ hk] at h
    exact ⟨_, hp.mem_iff.1 (List.getElem_mem hk), h⟩

end Verif.ExecTrace
