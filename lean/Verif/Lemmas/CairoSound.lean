import Verif.Spec.CairoTrace
import Verif.Lemmas.Forge

/-! Consequences of satisfying the Cairo AIR. -/

namespace Verif.CairoAir
open Spec

variable {pi : PublicInputs} {opts : ProofOptions} {rows : List (List FE)} {ch : RAPChallenges FE}

theorem _root_.Verif.Spec.Accepted.pos (h : Accepted pi opts rows ch) : 0 < rows.length := by
  obtain ⟨⟨cs, hcs, -⟩, -⟩ := h.sat
  have hcs' : boundaryConstraints pi rows.length ch = .ok cs := hcs
  have := (boundaryConstraints_ok hcs').2.1
  omega

theorem _root_.Verif.Spec.Accepted.parts (h : Accepted pi opts rows ch) :
    (∃ lo hi, Ends pi ch rows.length (cell rows) lo hi) ∧
      Parts (hasRcBuiltin pi) ch rows.length (cell rows) :=
  (satisfies_parts h.rect h.steps h.pos).1 h.sat

/-- An accepted trace from cells. -/
theorem accepted_table {n : Nat} {f : Nat → Nat → FE}
    (h0 : ∀ i c, traceColumns (hasRcBuiltin pi) ≤ c → f i c = 0) (hsteps : pi.numSteps ≤ n)
    {lo hi : UInt16} (he : Ends pi ch n f lo hi) (hp : Parts (hasRcBuiltin pi) ch n f) :
    Accepted pi opts (table n (traceColumns (hasRcBuiltin pi)) f) ch := by
  refine ⟨table_rect _ _ _, by rw [table_length]; exact hsteps, ?_⟩
  rw [table_length]
  exact satisfies_table h0 hsteps he hp

/-- Two consecutive sorted accesses. -/
theorem sorted_step (h : Accepted pi opts rows ch) (k : Nat) (hk : k + 1 < 4 * rows.length) :
    ((sortedAccess (hasRcBuiltin pi) rows (k + 1)).1 = (sortedAccess (hasRcBuiltin pi) rows k).1 ∧
      (sortedAccess (hasRcBuiltin pi) rows (k + 1)).2 = (sortedAccess (hasRcBuiltin pi) rows k).2) ∨
    (sortedAccess (hasRcBuiltin pi) rows (k + 1)).1
      = (sortedAccess (hasRcBuiltin pi) rows k).1 + 1 := by
  have hmem := h.parts.2.mem
  have key : ∀ a a' v v' : FE, (a - a') * (a' - a - 1) = 0 → (v - v') * (a' - a - 1) = 0 →
      (a' = a ∧ v' = v) ∨ a' = a + 1 := by
    intro a a' v v' h1 h2
    rcases mul_eq_zero.1 h2 with hv | hv
    · rcases mul_eq_zero.1 h1 with ha | ha
      · left; exact ⟨(sub_eq_zero.1 ha).symm, (sub_eq_zero.1 hv).symm⟩
      · right; linear_combination ha
    · right; linear_combination hv
  have hi : k / 4 < rows.length := by omega
  unfold sortedAccess
  have hm := hmem (k / 4) hi
  simp only [memoryIsIncreasing, Nat.add_zero] at hm
  by_cases h3 : k % 4 = 3
  · have e1 : (k + 1) / 4 = k / 4 + 1 := by omega
    have e2 : (k + 1) % 4 = 0 := by omega
    have hlt : k / 4 + 1 < rows.length := by omega
    rw [e1, e2, h3]
    rw [Nat.mod_eq_of_lt hlt] at hm
    exact key _ _ _ _ (Option.some.inj (hm 3 (by omega) fun _ => hlt))
      (Option.some.inj (hm 7 (by omega) fun _ => hlt))
  · have e1 : (k + 1) / 4 = k / 4 := by omega
    have e2 : (k + 1) % 4 = k % 4 + 1 := by omega
    rw [e1, e2]
    have hr : k % 4 = 0 ∨ k % 4 = 1 ∨ k % 4 = 2 := by omega
    rcases hr with hr | hr | hr <;> rw [hr]
    · exact key _ _ _ _ (Option.some.inj (hm 0 (by omega) (by omega)))
        (Option.some.inj (hm 4 (by omega) (by omega)))
    · exact key _ _ _ _ (Option.some.inj (hm 1 (by omega) (by omega)))
        (Option.some.inj (hm 5 (by omega) (by omega)))
    · exact key _ _ _ _ (Option.some.inj (hm 2 (by omega) (by omega)))
        (Option.some.inj (hm 6 (by omega) (by omega)))

/-- From one sorted access to a later one. -/
theorem sorted_path (h : Accepted pi opts rows ch) (i d : Nat) (hd : i + d < 4 * rows.length) :
    ∃ e ≤ d, (sortedAccess (hasRcBuiltin pi) rows (i + d)).1
        = (sortedAccess (hasRcBuiltin pi) rows i).1 + (e : FE) ∧
      (e = 0 → (sortedAccess (hasRcBuiltin pi) rows (i + d)).2
        = (sortedAccess (hasRcBuiltin pi) rows i).2) := by
  induction d with
  | zero => exact ⟨0, le_rfl, by simp, fun _ => rfl⟩
  | succ d ih =>
    obtain ⟨e, he, h1, h2⟩ := ih (by omega)
    rcases sorted_step h (i + d) (by omega) with ⟨s1, s2⟩ | s1
    · refine ⟨e, by omega, ?_, ?_⟩
      · rw [← Nat.add_assoc, s1, h1]
      · intro h0; rw [← Nat.add_assoc, s2, h2 h0]
    · refine ⟨e + 1, by omega, ?_, by omega⟩
      rw [← Nat.add_assoc, s1, h1]; push_cast; ring

/-- The memory permutation constraints, on the running product. -/
theorem product_step (h : Accepted pi opts rows ch) (k : Nat) (hk : k + 1 < 4 * rows.length) :
    (ch.zMemory - ((sortedAccess (hasRcBuiltin pi) rows (k + 1)).1 +
        ch.alphaMemory * (sortedAccess (hasRcBuiltin pi) rows (k + 1)).2))
      * runningProduct (hasRcBuiltin pi) rows (k + 1) =
    (ch.zMemory - ((access rows (k + 1)).1 + ch.alphaMemory * (access rows (k + 1)).2))
      * runningProduct (hasRcBuiltin pi) rows k := by
  have hi : k / 4 < rows.length := by omega
  have hm := h.parts.2.perm (k / 4) hi
  simp only [permutationArgument, Nat.add_zero] at hm
  unfold sortedAccess runningProduct access
  by_cases h3 : k % 4 = 3
  · have e1 : (k + 1) / 4 = k / 4 + 1 := by omega
    have e2 : (k + 1) % 4 = 0 := by omega
    have hlt : k / 4 + 1 < rows.length := by omega
    rw [e1, e2, h3]
    rw [Nat.mod_eq_of_lt hlt] at hm
    exact sub_eq_zero.1 (Option.some.inj (hm 3 (by omega) fun _ => hlt))
  · have e1 : (k + 1) / 4 = k / 4 := by omega
    have e2 : (k + 1) % 4 = k % 4 + 1 := by omega
    rw [e1, e2]
    have hr : k % 4 = 0 ∨ k % 4 = 1 ∨ k % 4 = 2 := by omega
    rcases hr with hr | hr | hr <;> rw [hr]
    · exact sub_eq_zero.1 (Option.some.inj (hm 0 (by omega) (by omega)))
    · exact sub_eq_zero.1 (Option.some.inj (hm 1 (by omega) (by omega)))
    · exact sub_eq_zero.1 (Option.some.inj (hm 2 (by omega) (by omega)))

/-- Two consecutive sorted offsets. -/
theorem offset_sorted_step (h : Accepted pi opts rows ch) (k : Nat) (hk : k + 1 < 3 * rows.length) :
    sortedOffset (hasRcBuiltin pi) rows (k + 1) = sortedOffset (hasRcBuiltin pi) rows k ∨
    sortedOffset (hasRcBuiltin pi) rows (k + 1) = sortedOffset (hasRcBuiltin pi) rows k + 1 := by
  have key : ∀ a a' : FE, (a - a') * (a' - a - 1) = 0 → a' = a ∨ a' = a + 1 := by
    intro a a' h1
    rcases mul_eq_zero.1 h1 with ha | ha
    · left; exact (sub_eq_zero.1 ha).symm
    · right; linear_combination ha
  have hi : k / 3 < rows.length := by omega
  have hm := h.parts.2.rc (k / 3) hi
  simp only [permutationArgumentRangeCheck] at hm
  unfold sortedOffset
  by_cases h3 : k % 3 = 2
  · have e1 : (k + 1) / 3 = k / 3 + 1 := by omega
    have e2 : (k + 1) % 3 = 0 := by omega
    have hlt : k / 3 + 1 < rows.length := by omega
    rw [e1, e2, h3]
    rw [Nat.mod_eq_of_lt hlt] at hm
    exact key _ _ (Option.some.inj (hm 2 (by omega) fun _ => hlt))
  · have e1 : (k + 1) / 3 = k / 3 := by omega
    have e2 : (k + 1) % 3 = k % 3 + 1 := by omega
    rw [e1, e2]
    have hr : k % 3 = 0 ∨ k % 3 = 1 := by omega
    rcases hr with hr | hr <;> rw [hr]
    · exact key _ _ (Option.some.inj (hm 0 (by omega) (by omega)))
    · exact key _ _ (Option.some.inj (hm 1 (by omega) (by omega)))

theorem offset_path (h : Accepted pi opts rows ch) (i d : Nat) (hd : i + d < 3 * rows.length) :
    ∃ e ≤ d, sortedOffset (hasRcBuiltin pi) rows (i + d)
        = sortedOffset (hasRcBuiltin pi) rows i + (e : FE) := by
  induction d with
  | zero => exact ⟨0, le_rfl, by simp⟩
  | succ d ih =>
    obtain ⟨e, he, h1⟩ := ih (by omega)
    rcases offset_sorted_step h (i + d) (by omega) with s1 | s1
    · exact ⟨e, by omega, by rw [← Nat.add_assoc, s1, h1]⟩
    · exact ⟨e + 1, by omega, by rw [← Nat.add_assoc, s1, h1]; push_cast; ring⟩

/-- All the sorted offsets lie between the public bounds. -/
theorem sorted_bounds (h : Accepted pi opts rows ch) (hP : 3 * rows.length + 2 ^ 16 ≤ P)
    {lo hi : UInt16} (he : Ends pi ch rows.length (cell rows) lo hi) (k : Nat)
    (hk : k < 3 * rows.length) :
    lo.toNat ≤ (sortedOffset (hasRcBuiltin pi) rows k).val ∧
      (sortedOffset (hasRcBuiltin pi) rows k).val ≤ hi.toNat := by
  have hn := h.pos
  have hlo : lo.toNat < 2 ^ 16 := UInt16.toNat_lt lo
  have hhi : hi.toNat < 2 ^ 16 := UInt16.toNat_lt hi
  have h0 : sortedOffset (hasRcBuiltin pi) rows 0 = (lo.toNat : FE) := by
    have := he.rcFirst; simpa [sortedOffset] using this
  have hN : sortedOffset (hasRcBuiltin pi) rows (3 * rows.length - 1) = (hi.toNat : FE) := by
    have := he.rcLast
    unfold sortedOffset
    rw [show (3 * rows.length - 1) / 3 = rows.length - 1 by omega,
      show (3 * rows.length - 1) % 3 = 2 by omega]
    exact this
  obtain ⟨e1, he1, p1⟩ := offset_path h 0 k (by omega)
  obtain ⟨e2, he2, p2⟩ := offset_path h k (3 * rows.length - 1 - k) (by omega)
  rw [Nat.zero_add] at p1
  rw [show k + (3 * rows.length - 1 - k) = 3 * rows.length - 1 by omega, hN] at p2
  rw [h0] at p1
  have v1 : (sortedOffset (hasRcBuiltin pi) rows k).val = lo.toNat + e1 := by
    rw [p1, ← Nat.cast_add, ZMod.val_natCast_of_lt (by omega)]
  have v2 : hi.toNat = lo.toNat + e1 + e2 := by
    rw [p1, ← Nat.cast_add, ← Nat.cast_add] at p2
    have := congrArg ZMod.val p2
    rwa [ZMod.val_natCast_of_lt (by omega), ZMod.val_natCast_of_lt (by omega)] at this
  omega

/-- The range-check permutation constraints: with the running product `q` of the trace, the cyclic
chain of equations closes. -/
theorem offset_product (h : Accepted pi opts rows ch) :
    ∃ q : Nat → FE, q (3 * rows.length - 1) = 1 ∧
      (∀ k, k + 1 < 3 * rows.length →
        (ch.zRangeCheck - sortedOffset (hasRcBuiltin pi) rows (k + 1)) * q (k + 1) =
          (ch.zRangeCheck - offset rows (k + 1)) * q k) ∧
      (ch.zRangeCheck - sortedOffset (hasRcBuiltin pi) rows 0) * q 0 =
          (ch.zRangeCheck - offset rows 0) * q (3 * rows.length - 1) := by
  have hn := h.pos
  obtain ⟨⟨lo, hi, he⟩, hp⟩ := h.parts
  refine ⟨fun k => cell rows (k / 3) (PERMUTATION_ARGUMENT_RANGE_CHECK_COL_1 + k % 3
    - builtinOffset (hasRcBuiltin pi)), ?_, ?_, ?_⟩
  · have := he.rcPerm
    simp only
    rw [show (3 * rows.length - 1) / 3 = rows.length - 1 by omega,
      show (3 * rows.length - 1) % 3 = 2 by omega]
    exact this
  · intro k hk
    have hi : k / 3 < rows.length := by omega
    have hm := hp.rc (k / 3) hi
    simp only [permutationArgumentRangeCheck] at hm
    unfold sortedOffset offset
    by_cases h3 : k % 3 = 2
    · have e1 : (k + 1) / 3 = k / 3 + 1 := by omega
      have e2 : (k + 1) % 3 = 0 := by omega
      have hlt : k / 3 + 1 < rows.length := by omega
      simp only [e1, e2, h3]
      rw [Nat.mod_eq_of_lt hlt] at hm
      exact sub_eq_zero.1 (Option.some.inj (hm 5 (by omega) (by omega)))
    · have e1 : (k + 1) / 3 = k / 3 := by omega
      have e2 : (k + 1) % 3 = k % 3 + 1 := by omega
      have hr : k % 3 = 0 ∨ k % 3 = 1 := by omega
      rcases hr with hr | hr <;> simp only [e1, e2, hr]
      · exact sub_eq_zero.1 (Option.some.inj (hm 3 (by omega) (by omega)))
      · exact sub_eq_zero.1 (Option.some.inj (hm 4 (by omega) (by omega)))
  · have hm := hp.rc (rows.length - 1) (by omega) 5 (by omega) (by omega)
    rw [show rows.length - 1 + 1 = rows.length by omega, Nat.mod_self] at hm
    simp only [permutationArgumentRangeCheck] at hm
    unfold sortedOffset offset
    simp only
    rw [show (3 * rows.length - 1) / 3 = rows.length - 1 by omega,
      show (3 * rows.length - 1) % 3 = 2 by omega]
    exact sub_eq_zero.1 (Option.some.inj hm)

end Verif.CairoAir
