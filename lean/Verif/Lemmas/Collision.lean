import Verif.Spec.Collision
import Verif.Lemmas.Search

/-!
# Collisions of a random function
-/

namespace Verif
open Verif.Spec Verif.Proximity Random Finset

section birthday
variable {X D : Type} [Fintype X] [DecidableEq X] [Fintype D] [Nonempty D]

omit [Fintype X] [DecidableEq X] [Fintype D] [Nonempty D] in
theorem answers_length (K : X → D) (ask : List D → X) (n : Nat) : (answers K ask n).length = n := by
  induction n with
  | zero => rfl
  | succ n ih => rw [answers, List.length_append, ih]; rfl

omit [Fintype X] [DecidableEq X] [Fintype D] [Nonempty D] in
theorem mem_answers (K : X → D) (ask : List D → X) (n : Nat) (d : D) :
    d ∈ answers K ask n ↔ ∃ j < n, K (ask (answers K ask j)) = d := by
  induction n with
  | zero => simp [answers]
  | succ n ih =>
    rw [answers, List.mem_append, ih, List.mem_singleton]
    constructor
    · rintro (⟨j, hj, h⟩ | rfl)
      · exact ⟨j, by omega, h⟩
      · exact ⟨n, by omega, rfl⟩
    · rintro ⟨j, hj, h⟩
      rcases Nat.lt_succ_iff_lt_or_eq.mp hj with hj | rfl
      · exact .inl ⟨j, hj, h⟩
      · exact .inr h.symm

omit [Fintype X] [DecidableEq X] [Fintype D] [Nonempty D] in
theorem answers_take (K : X → D) (ask : List D → X) (n i : Nat) :
    (answers K ask (n + i)).take n = answers K ask n := by
  induction i with
  | zero => exact List.take_of_length_le (by rw [Nat.add_zero, answers_length])
  | succ i ih =>
    rw [← Nat.add_assoc, answers, List.take_append_of_le_length (by rw [answers_length]; omega), ih]

omit [Nonempty D] in
theorem probability_mem (l : List D) : probability D (· ∈ l) ≤ l.length / Fintype.card D := by
  classical
  rw [probability_eq]
  refine div_le_div_of_nonneg_right ?_ (by positivity)
  have : (univ.filter (· ∈ l)).card ≤ l.toFinset.card := card_le_card fun x hx => by simpa using hx
  exact_mod_cast this.trans l.toFinset_card_le

/-- A new question, when what counts depends on the answers so far. -/
theorem probability_new_given (ask : List D → X) (B : List D → D → Prop) {p : ℚ} (i : Nat)
    (hp : ∀ l, l.length = i → probability D (B l) ≤ p) :
    probability (X → D) (fun K => (∀ j < i, ask (answers K ask j) ≠ ask (answers K ask i)) ∧
      B (answers K ask i) (K (ask (answers K ask i)))) ≤ p := by
  classical
  let E (l : List D) (K : X → D) : Prop := answers K ask i = l ∧ ∀ j < i, ask (answers K ask j) ≠ ask l
  have hE : ∀ l K d, E l (Function.update K (ask l) d) ↔ E l K := by
    have h : ∀ l K d, E l K → E l (Function.update K (ask l) d) := by
      rintro l K d ⟨h1, h2⟩
      refine ⟨by rw [answers_update K ask (ask l) d h2]; exact h1, fun j hj => ?_⟩
      rw [answers_update K ask (ask l) d fun k hk => h2 k (by omega)]
      exact h2 j hj
    intro l K d
    refine ⟨fun hx => ?_, h l K d⟩
    have := h l (Function.update K (ask l) d) (K (ask l)) hx
    rwa [Function.update_idem, Function.update_eq_self] at this
  obtain ⟨d0⟩ := ‹Nonempty D›
  have hp0 : 0 ≤ p := (probability_nonneg _).trans (hp (List.replicate i d0) List.length_replicate)
  let S : Finset (List D) := univ.image fun K : X → D => answers K ask i
  have hS : ∀ K : X → D, answers K ask i ∈ S := fun K => mem_image.mpr ⟨K, mem_univ _, rfl⟩
  have hSl : ∀ l ∈ S, l.length = i := by
    intro l hl
    obtain ⟨K, -, rfl⟩ := mem_image.mp hl
    exact answers_length K ask i
  have hsum : ∀ P : List D → (X → D) → Prop, (∀ x y K, P x K → P y K → x = y) →
      probability (X → D) (fun K => ∃ x ∈ S, P x K) = ∑ x ∈ S, probability (X → D) (P x) := by
    intro P hP
    simp only [probability_eq]
    rw [← Finset.sum_div, ← Nat.cast_sum, ← card_biUnion]
    · congr 3
      ext K
      simp
    · intro x _ y _ hxy
      rw [Function.onFun, disjoint_left]
      intro K h1 h2
      simp only [mem_filter, mem_univ, true_and] at h1 h2
      exact hxy (hP x y K h1 h2)
  calc probability (X → D) (fun K => (∀ j < i, ask (answers K ask j) ≠ ask (answers K ask i)) ∧
        B (answers K ask i) (K (ask (answers K ask i))))
      = probability (X → D) (fun K => ∃ l ∈ S, E l K ∧ B l (K (ask l))) := by
        congr 1
        funext K
        refine propext ⟨fun ⟨h1, h2⟩ => ⟨_, hS K, ⟨rfl, h1⟩, h2⟩, ?_⟩
        rintro ⟨l, -, ⟨rfl, h1⟩, h2⟩
        exact ⟨h1, h2⟩
    _ = ∑ l ∈ S, probability (X → D) (E l) * probability D (B l) := by
        rw [hsum _ fun x y K h1 h2 => h1.1.1.symm.trans h2.1.1]
        exact Finset.sum_congr rfl fun l _ => probability_at (ask l) (E l) (hE l) (B l)
    _ ≤ ∑ l ∈ S, probability (X → D) (E l) * p :=
        Finset.sum_le_sum fun l hl => mul_le_mul_of_nonneg_left (hp l (hSl l hl)) (probability_nonneg _)
    _ = probability (X → D) (fun K => ∃ l ∈ S, E l K) * p := by
        rw [hsum _ fun x y K h1 h2 => h1.1.symm.trans h2.1, Finset.sum_mul]
    _ ≤ 1 * p := mul_le_mul_of_nonneg_right (probability_le_one _) hp0
    _ = p := one_mul _

/-- An adaptive search of `n` questions finds two questions with the same answer with probability at most the number of
pairs over the number of answers. -/
theorem probability_collision (ask : List D → X) (n : Nat) :
    probability (X → D) (fun K => ∃ i < n, ∃ j < n, ask (answers K ask i) ≠ ask (answers K ask j) ∧
      K (ask (answers K ask i)) = K (ask (answers K ask j))) ≤ (n * (n - 1) / 2 : ℚ) / Fintype.card D := by
  classical
  have key : ∀ m : Nat, probability (X → D) (fun K => ∃ i < m, (∀ j < i, ask (answers K ask j) ≠ ask (answers K ask i)) ∧
      K (ask (answers K ask i)) ∈ answers K ask i) ≤ (m * (m - 1) / 2 : ℚ) / Fintype.card D := by
    intro m
    induction m with
    | zero =>
      refine (probability_mono (Q := fun _ => False) fun K ⟨i, hi, _⟩ => absurd hi (Nat.not_lt_zero i)).trans ?_
      rw [probability_false]
      simp
    | succ m ih =>
      refine (probability_mono (Q := fun K => (∃ i < m, (∀ j < i, ask (answers K ask j) ≠ ask (answers K ask i)) ∧
        K (ask (answers K ask i)) ∈ answers K ask i) ∨
        ((∀ j < m, ask (answers K ask j) ≠ ask (answers K ask m)) ∧
        K (ask (answers K ask m)) ∈ answers K ask m)) ?_).trans ((probability_or _ _).trans ?_)
      · rintro K ⟨i, hi, h⟩
        rcases Nat.lt_succ_iff_lt_or_eq.mp hi with hi | rfl
        · exact .inl ⟨i, hi, h⟩
        · exact .inr h
      · have h1 := probability_new_given (p := (m : ℚ) / Fintype.card D) ask (fun l d => d ∈ l) m (by
          rintro l rfl
          exact probability_mem l)
        refine (add_le_add ih h1).trans (le_of_eq ?_)
        push_cast
        ring
  refine (probability_mono fun K hK => ?_).trans (key n)
  have hK' : ∃ i, i < n ∧ ∃ j < i, ask (answers K ask i) ≠ ask (answers K ask j) ∧
      K (ask (answers K ask i)) = K (ask (answers K ask j)) := by
    obtain ⟨i, hi, j, hj, h1, h2⟩ := hK
    rcases lt_trichotomy i j with h | rfl | h
    · exact ⟨j, hj, i, h, h1.symm, h2.symm⟩
    · exact absurd rfl h1
    · exact ⟨i, hi, j, h, h1, h2⟩
  obtain ⟨h1, j, hj, h2, h3⟩ := Nat.find_spec hK'
  refine ⟨Nat.find hK', h1, fun k hk he => ?_, ?_⟩
  · rcases lt_trichotomy j k with h | rfl | h
    · exact Nat.find_min hK' hk ⟨hk.trans h1, j, h, by rw [he]; exact h2, by rw [he]; exact h3⟩
    · exact h2 he.symm
    · exact Nat.find_min hK' hj ⟨hj.trans h1, k, h, by rw [he]; exact h2.symm, by rw [he]; exact h3.symm⟩
  · rw [mem_answers]
    exact ⟨j, hj, h3.symm⟩

end birthday

/-- Two paths of the same length to the same hash are the same, with the same message, or hash two messages alike. -/
theorem messages_collide (hash : Bytes → Commitment) (path path' : List Commitment) (hlen : path.length = path'.length)
    (index : Nat) (m m' : Bytes)
    (h : Merkle.climb (nodeHash hash) path index (hash m) = Merkle.climb (nodeHash hash) path' index (hash m')) :
    (m = m' ∧ path = path') ∨
      ∃ x ∈ messagesOf hash m path index, ∃ y ∈ messagesOf hash m' path' index, x ≠ y ∧ hash x = hash y := by
  induction path generalizing path' index m m' with
  | nil =>
    obtain rfl := List.length_eq_zero_iff.1 hlen.symm
    by_cases hm : m = m'
    · exact .inl ⟨hm, rfl⟩
    · exact .inr ⟨m, by simp [messagesOf], m', by simp [messagesOf], hm, h⟩
  | cons s path ih =>
    obtain ⟨s', rest, rfl⟩ : ∃ s' rest, path' = s' :: rest := by
      cases path' with
      | nil => simp at hlen
      | cons s' rest => exact ⟨s', rest, rfl⟩
    have hl : ∀ x y : Commitment, x.val.length = y.val.length := fun x y => x.2.trans y.2.symm
    have key : ∀ c : Prop, [Decidable c] → (if c then (hash m).val ++ s.val else s.val ++ (hash m).val)
        = (if c then (hash m').val ++ s'.val else s'.val ++ (hash m').val) → hash m = hash m' ∧ s = s' := by
      intro c _ hc
      split at hc
      · exact ⟨Subtype.ext (List.append_inj hc (hl _ _)).1, Subtype.ext (List.append_inj hc (hl _ _)).2⟩
      · exact ⟨Subtype.ext (List.append_inj hc (hl _ _)).2, Subtype.ext (List.append_inj hc (hl _ _)).1⟩
    have hif : ∀ (a b : Commitment), (if index % 2 = 0 then nodeHash hash a b else nodeHash hash b a)
        = hash (if index % 2 = 0 then a.val ++ b.val else b.val ++ a.val) := by
      intro a b
      split <;> rfl
    simp only [Merkle.climb, hif] at h
    rcases ih rest (by simpa using hlen) (index / 2) _ _ h with ⟨e1, rfl⟩ | ⟨x, hx, y, hy, e⟩
    · obtain ⟨e2, rfl⟩ := key _ e1
      by_cases hm : m = m'
      · exact .inl ⟨hm, rfl⟩
      · exact .inr ⟨m, by simp [messagesOf], m', by simp [messagesOf], hm, e2⟩
    · exact .inr ⟨x, by simp [messagesOf, hx], y, by simp [messagesOf, hy], e⟩

section path
variable {L : Nat}

/-- A message, if it is short enough. -/
def short (L : Nat) (m : Bytes) : Message L := if h : m.length ≤ L then ⟨m, h⟩ else ⟨[], Nat.zero_le _⟩

theorem short_val {m : Bytes} (h : m.length ≤ L) : (short L m).val = m := by
  rw [short, dif_pos h]

theorem drawnHash_short (keccak : Bytes → Commitment) (K : Message L → Commitment) {m : Bytes} (h : m.length ≤ L) :
    drawnHash keccak K m = K (short L m) := by
  rw [drawnHash, short, dif_pos h, dif_pos h]

/-- What a searcher asks after `N` questions can be changed without changing those. -/
theorem answers_before (K : Message L → Commitment) (ask ask' : List Commitment → Message L) (N : Nat)
    (h : ∀ l : List Commitment, l.length < N → ask' l = ask l) {i : Nat} (hi : i ≤ N) :
    answers K ask' i = answers K ask i := by
  induction i with
  | zero => rfl
  | succ i ih => rw [answers, answers, ih (by omega), h _ (by rw [answers_length]; omega)]

/-- A searcher can go on to ask all the messages of a path that depends on the answers. -/
theorem ask_path (hL : 64 ≤ L) (keccak : Bytes → Commitment) (h N : Nat) (ask : List Commitment → Message L)
    (f : List Commitment → Bytes × List Commitment × Nat) :
    ∃ ask' : List Commitment → Message L, (∀ l, l.length < N → ask' l = ask l) ∧ ∀ K : Message L → Commitment,
      let x := f (answers K ask N)
      x.1.length ≤ L → x.2.1.length ≤ h → ∀ m ∈ messagesOf (drawnHash keccak K) x.1 x.2.1 x.2.2,
        m.length ≤ L ∧ ∃ i < N + h + 1, (ask' (answers K ask' i)).val = m := by
  induction h generalizing N ask f with
  | zero =>
    refine ⟨fun l => if l.length < N then ask l else short L (f l).1, fun l hl => if_pos hl, ?_⟩
    intro K x hx hp m hm
    have h0 : x.2.1 = [] := List.length_eq_zero_iff.mp (Nat.le_zero.mp hp)
    rw [h0, messagesOf, List.mem_singleton] at hm
    subst hm
    refine ⟨hx, N, by omega, ?_⟩
    rw [answers_before K ask _ N (fun l hl => if_pos hl) le_rfl]
    exact (congrArg Subtype.val (if_neg (by rw [answers_length]; omega))).trans (short_val hx)
  | succ h ih =>
    let ask1 : List Commitment → Message L := fun l => if l.length < N then ask l else short L (f l).1
    let f1 : List Commitment → Bytes × List Commitment × Nat := fun l =>
      let x := f (l.take N)
      let d := l.getD N ⟨List.replicate 32 0, List.length_replicate⟩
      match x.2.1 with
      | [] => (x.1, [], 0)
      | s :: path => (if x.2.2 % 2 = 0 then d.val ++ s.val else s.val ++ d.val, path, x.2.2 / 2)
    obtain ⟨ask', h1, h2⟩ := ih (N + 1) ask1 f1
    have hb : ∀ l : List Commitment, l.length < N → ask' l = ask l := fun l hl => by
      rw [h1 l (by omega)]
      exact if_pos hl
    refine ⟨ask', hb, ?_⟩
    intro K x hx hp m hm
    have hN1 : answers K ask1 N = answers K ask N := answers_before K ask ask1 N (fun l hl => if_pos hl) le_rfl
    have hask1 : ask1 (answers K ask1 N) = short L x.1 := by
      rw [hN1]
      exact if_neg (by rw [answers_length]; omega)
    have hq : (ask' (answers K ask' N)).val = x.1 := by
      rw [answers_before K ask1 ask' (N + 1) h1 (by omega), h1 _ (by rw [answers_length]; omega), hask1]
      exact short_val hx
    have hf1 : f1 (answers K ask1 (N + 1)) = match x.2.1 with
        | [] => (x.1, [], 0)
        | s :: path => (if x.2.2 % 2 = 0 then (drawnHash keccak K x.1).val ++ s.val
            else s.val ++ (drawnHash keccak K x.1).val, path, x.2.2 / 2) := by
      show (match (f ((answers K ask1 (N + 1)).take N)).2.1 with | [] => _ | s :: path => _) = _
      rw [answers_take, hN1, answers, hask1, drawnHash_short keccak K hx,
        List.getD_append_right _ _ _ _ (by rw [answers_length]), answers_length, Nat.sub_self]
      rfl
    have := h2 K
    rw [hf1] at this
    generalize x.2.2 = index at *
    generalize x.1 = m0 at *
    match hpath : x.2.1, hm, hp with
    | [], hm, _ =>
      rw [messagesOf, List.mem_singleton] at hm
      subst hm
      exact ⟨hx, N, by omega, hq⟩
    | s :: path, hm, hp =>
      rw [hpath] at this
      rw [messagesOf, List.mem_cons] at hm
      rcases hm with rfl | hm
      · exact ⟨hx, N, by omega, hq⟩
      · obtain ⟨h3, i, hi, h4⟩ := this (by
          dsimp only
          have h5 := (drawnHash keccak K m0).property
          have h6 := s.property
          split <;> rw [List.length_append] <;> omega)
          (by simpa using hp) m hm
        exact ⟨h3, i, by omega, h4⟩

theorem card_digests : (Fintype.card Commitment : ℚ) = 2 ^ 256 := by
  have h1 : Fintype.card Commitment = Fintype.card UInt8 ^ 32 := card_vector 32
  have h2 : Fintype.card UInt8 = 256 := (Fintype.ofEquiv_card _).trans (Fintype.card_fin 256)
  rw [h1, h2]
  norm_num

theorem pairs_le (n : ℕ) {x : ℚ} (hx : (n : ℚ) = x) (k : ℕ) :
    (n * (n - 1) / 2 : ℚ) / 2 ^ k ≤ x ^ 2 / 2 ^ (k + 1) := by
  rw [pow_succ' (2 : ℚ) k, ← div_div, ← hx]
  refine div_le_div_of_nonneg_right ?_ (by positivity)
  have : (0 : ℚ) ≤ n := by positivity
  nlinarith

/-- A searcher that asks `N` questions ends with two different ways to one hash, along paths of the same length of at most
`h`, with probability at most the number of pairs of `N + 2 (h + 1)` questions over the number of digests. -/
theorem probability_two_ways (hL : 64 ≤ L) (keccak : Bytes → Commitment) (h N : Nat) (ask : List Commitment → Message L)
    (out : List Commitment → Nat × (Bytes × List Commitment) × (Bytes × List Commitment)) :
    probability (Message L → Commitment) (fun K =>
      let x := out (answers K ask N)
      x.2.1.1.length ≤ L ∧ x.2.2.1.length ≤ L ∧ x.2.1.2.length = x.2.2.2.length ∧ x.2.1.2.length ≤ h ∧ x.2.1 ≠ x.2.2 ∧
      Merkle.climb (nodeHash (drawnHash keccak K)) x.2.1.2 x.1 (drawnHash keccak K x.2.1.1)
        = Merkle.climb (nodeHash (drawnHash keccak K)) x.2.2.2 x.1 (drawnHash keccak K x.2.2.1))
      ≤ ((N + 2 * (h + 1)) ^ 2 : ℚ) / 2 ^ 257 := by
  classical
  obtain ⟨ask1, a1, a2⟩ := ask_path hL keccak h N ask fun l => ((out l).2.1.1, (out l).2.1.2, (out l).1)
  obtain ⟨ask2, b1, b2⟩ := ask_path hL keccak h (N + h + 1) ask1 fun l =>
    ((out (l.take N)).2.2.1, (out (l.take N)).2.2.2, (out (l.take N)).1)
  have hb := probability_collision (D := Commitment) ask2 (N + 2 * (h + 1))
  rw [card_digests] at hb
  refine (probability_mono fun K hK => ?_).trans (hb.trans ?_)
  · obtain ⟨h1, h2, h3, h4, h5, h6⟩ := hK
    have hN : (answers K ask1 (N + h + 1)).take N = answers K ask N := by
      rw [Nat.add_assoc, answers_take, answers_before K ask ask1 N a1 le_rfl]
    rcases messages_collide _ _ _ h3 _ _ _ h6 with ⟨e1, e2⟩ | ⟨x, hx, y, hy, hxy, e⟩
    · exact absurd (Prod.ext e1 e2) h5
    · obtain ⟨hxl, i, hi, ei⟩ := a2 K h1 h4 x hx
      have hb2 := b2 K
      simp only [hN] at hb2
      obtain ⟨hyl, j, hj, ej⟩ := hb2 h2 (h3 ▸ h4) y hy
      have ei' : (ask2 (answers K ask2 i)).val = x := by
        rw [answers_before K ask1 ask2 (N + h + 1) b1 hi.le, b1 _ (by rw [answers_length]; omega)]
        exact ei
      refine ⟨i, by omega, j, by omega, fun he => hxy ?_, ?_⟩
      · rw [← ei', ← ej, he]
      · have hv : ∀ (m : Message L) (z : Bytes), m.val = z → K m = drawnHash keccak K z := by
          rintro m z rfl
          rw [drawnHash, dif_pos m.property]
        rw [hv _ _ ei', hv _ _ ej, e]
  · exact pairs_le (N + 2 * (h + 1)) (by push_cast; ring) 256

end path

end Verif
