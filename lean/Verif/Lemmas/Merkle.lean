import Verif.Model.Merkle
import Mathlib.Tactic.Ring
import Mathlib.Algebra.Order.Ring.Nat

/-!
# Lemmas about Merkle trees
-/

namespace Verif.Merkle

theorem parents_length (node : Commitment → Commitment → Commitment) (l : List Commitment) :
    (parents node l).length = l.length / 2 := by
  induction l using parents.induct with
  | case1 a b rest ih => simp only [parents, List.length_cons, ih]; omega
  | case2 l h =>
    match l, h with
    | [], _ => simp [parents]
    | [a], _ => simp [parents]
    | a :: b :: r, h => exact absurd rfl (h a b r)

theorem parents_getElem? (node : Commitment → Commitment → Commitment) (l : List Commitment) (i : Nat)
    (a b : Commitment) (ha : l[2 * i]? = some a) (hb : l[2 * i + 1]? = some b) :
    (parents node l)[i]? = some (node a b) := by
  induction l using parents.induct generalizing i with
  | case1 x y rest ih =>
    cases i with
    | zero =>
      simp at ha hb
      simp [parents, ha, hb]
    | succ i =>
      rw [show 2 * (i + 1) = 2 * i + 1 + 1 by ring] at ha hb
      simp only [List.getElem?_cons_succ] at ha hb
      simp only [parents, List.getElem?_cons_succ]
      exact ih i ha hb
  | case2 l h =>
    match l, h with
    | [], _ => simp at ha
    | [x], _ =>
      have := List.getElem?_eq_some_iff.mp hb
      obtain ⟨h1, _⟩ := this
      simp at h1
    | x :: y :: r, h => exact absurd rfl (h x y r)

/-- The path of a leaf leads to the root, at every index congruent to its position. -/
theorem climb_pathOf (node : Commitment → Commitment → Commitment) (k : Nat) (l : List Commitment)
    (hl : l.length = 2 ^ k) (pos idx : Nat) (hpos : pos < 2 ^ k) (hidx : idx % 2 ^ k = pos)
    (x : Commitment) (hx : l[pos]? = some x) :
    climb node (pathOf node k l pos) idx x = rootOf node k l := by
  induction k generalizing l pos idx x with
  | zero =>
    have : pos = 0 := by simpa using hpos
    subst this
    match l, hl with
    | [y], _ =>
      simp at hx
      simp [pathOf, climb, rootOf, hx]
  | succ k ih =>
    have hpow : 2 ^ (k + 1) = 2 * 2 ^ k := by ring
    rw [hpow] at hl hpos hidx
    unfold pathOf climb rootOf
    have hidx2 : idx / 2 % 2 ^ k = pos / 2 := by
      have h1 : idx = 2 * 2 ^ k * (idx / (2 * 2 ^ k)) + pos := by
        rw [← hidx]; exact (Nat.div_add_mod idx _).symm
      have h2 : idx / 2 = 2 ^ k * (idx / (2 * 2 ^ k)) + pos / 2 := by
        generalize idx / (2 * 2 ^ k) = q at h1
        have : 2 * 2 ^ k * q = 2 * (2 ^ k * q) := by ring
        omega
      rw [h2, Nat.mul_add_mod, Nat.mod_eq_of_lt (by omega)]
    have hpar : idx % 2 = pos % 2 := by
      rw [← hidx, Nat.mod_mul_right_mod]
    refine ih (parents node l) (by rw [parents_length, hl]; omega) (pos / 2) (idx / 2) (by omega)
      hidx2 _ ?_
    rw [hpar]
    by_cases h0 : pos % 2 = 0
    · simp only [h0, if_true]
      have hlt : pos + 1 < l.length := by omega
      refine parents_getElem? node l (pos / 2) _ _ ?_ ?_
      · rw [show 2 * (pos / 2) = pos by omega]; exact hx
      · rw [show 2 * (pos / 2) + 1 = pos + 1 by omega]
        simp [List.getD, List.getElem?_eq_getElem hlt]
    · simp only [h0, if_false]
      have hlt : pos - 1 < l.length := by omega
      refine parents_getElem? node l (pos / 2) _ _ ?_ ?_
      · rw [show 2 * (pos / 2) = pos - 1 by omega]
        simp [List.getD, List.getElem?_eq_getElem hlt]
      · rw [show 2 * (pos / 2) + 1 = pos by omega]; exact hx

theorem complete_pow (l : List Commitment) (k : Nat) (hl : l.length = 2 ^ k) : complete l = l := by
  unfold complete
  cases h : l.getLast? with
  | none =>
    rw [List.getLast?_eq_none_iff] at h
    exact h.symm
  | some x => simp [hl, Nat.clog_pow 2 k]

variable {V : Type}

/-- Building a tree over `2^k` values succeeds. -/
theorem build_ok (leaf : V → Commitment) (node : Commitment → Commitment → Commitment)
    (values : List V) (k : Nat) (hl : values.length = 2 ^ k) :
    build leaf node values = .ok ⟨values.map leaf, rootOf node k (values.map leaf)⟩ := by
  unfold build
  have hne : values ≠ [] := by
    rintro rfl
    have : 0 < 2 ^ k := by positivity
    simp at hl
    omega
  simp only [hne, if_false]
  rw [complete_pow _ k (by rw [List.length_map, hl]), List.length_map, hl,
    Nat.log_pow (by norm_num : 1 < 2)]

/-- The proof of a position in a tree over `2^k` values exists and verifies at every index congruent
to the position. -/
theorem getProof_ok (leaf : V → Commitment) (node : Commitment → Commitment → Commitment)
    (values : List V) (k : Nat) (hl : values.length = 2 ^ k) (t : Tree)
    (ht : build leaf node values = .ok t) (pos : Nat) (hpos : pos < 2 ^ k) :
    ∃ proof, t.getProofByPos node pos = some proof ∧
      ∀ idx v, idx % 2 ^ k = pos → values[pos]? = some v →
        verify leaf node proof t.root idx v = true := by
  rw [build_ok leaf node values k hl] at ht
  obtain rfl := Outcome.ok.inj ht
  unfold Tree.getProofByPos
  simp only [List.length_map, hl, if_pos hpos, Nat.log_pow (by norm_num : 1 < 2)]
  refine ⟨_, rfl, fun idx v hidx hv => ?_⟩
  unfold verify
  rw [decide_eq_true_iff]
  exact (climb_pathOf node k _ (by rw [List.length_map, hl]) pos idx hpos hidx (leaf v)
    (by simp [hv])).symm

end Verif.Merkle
