import Verif.Lemmas.Patient
import Verif.Lemmas.Extracted

/-!
# A prover that asks for everything that the verifier will ask for
-/

namespace Verif
open Verif.Spec

variable {L k n : Nat} {R : Type}

theorem first_first {M : Type} (l : Told M n) (i j : Nat) : (l.first i).first j = l.first (min j i) := by
  unfold Told.first
  simp only [List.take_take]

theorem first_all {M : Type} (l : Told M n) {j : Nat} (h : l.val.length ≤ j) : l.first j = l :=
  Subtype.ext (List.take_of_length_le h)

/-- In place of a question for digests those after each of the messages; a question for a hash at the end of the block. -/
def spreadQuestion (x : Question L k n) (j : Nat) : Question L k n :=
  match x with
  | .inl m => if j = n - 1 then .inl m else .inr ⟨[], Nat.zero_le n⟩
  | .inr y => .inr (y.first (j + 1))

theorem spreadQuestion_last (hn : 0 < n) (x : Question L k n) : spreadQuestion x (n - 1) = x := by
  cases x with
  | inl m => simp [spreadQuestion]
  | inr y =>
    simp only [spreadQuestion]
    rw [first_all y (by have := y.property; omega)]

theorem spreadQuestion_text (x : Question L k n) (j : Nat) (hj : j < n - 1) : (spreadQuestion x j).text = none := by
  cases x with
  | inl m =>
    simp only [spreadQuestion, if_neg (by omega : ¬ j = n - 1)]
    rfl
  | inr y => rfl

/-- The questions and one more. -/
def closing (N : Nat) (ask : List (Commitment × R) → Question L k n) (last : List (Commitment × R) → Told (Said k) n)
    (got : List (Commitment × R)) : Question L k n :=
  if got.length < N then ask got else .inr (last got)

/-- The questions in blocks, one more block, and the hashes of the messages that are then needed. -/
def thorough (N : Nat) (ask : List (Commitment × R) → Question L k n) (last : List (Commitment × R) → Told (Said k) n)
    (zero : Commitment) (need : List (Commitment × R) → (Bytes → Commitment) → List Bytes) (got : List (Commitment × R)) :
    Question L k n :=
  if got.length < (N + 1) * n then inBlocks n spreadQuestion (closing N ask last) got
  else
    let m := nextNeed zero (need (got.take ((N + 1) * n))) ((got.drop ((N + 1) * n)).map Prod.fst)
    if h : m.length ≤ L then .inl ⟨m, h⟩ else .inl ⟨[], Nat.zero_le L⟩

section facts
variable (O : Question L k n → Commitment × R) (N : Nat) (ask : List (Commitment × R) → Question L k n)
  (last : List (Commitment × R) → Told (Said k) n) (zero : Commitment)
  (need : List (Commitment × R) → (Bytes → Commitment) → List Bytes)

theorem closing_answers {i : Nat} (hi : i ≤ N) : answers O (closing N ask last) i = answers O ask i :=
  answers_congr O (M := N) (fun l hl => by rw [closing, if_pos hl]) hi

theorem closing_before {i : Nat} (hi : i < N) : closing N ask last (answers O ask i) = ask (answers O ask i) := by
  rw [closing, if_pos (by rw [answers_length]; exact hi)]

theorem closing_end : closing N ask last (answers O ask N) = .inr (last (answers O ask N)) := by
  rw [closing, if_neg (by rw [answers_length]; omega)]

theorem thorough_base {i : Nat} (hi : i ≤ (N + 1) * n) :
    answers O (thorough N ask last zero need) i = answers O (inBlocks n spreadQuestion (closing N ask last)) i :=
  answers_congr O (M := (N + 1) * n) (fun l hl => by rw [thorough, if_pos hl]) hi

theorem thorough_question (hn : 0 < n) {i j : Nat} (hi : i ≤ N) (hj : j < n) :
    thorough N ask last zero need (answers O (thorough N ask last zero need) (i * n + j))
      = spreadQuestion (closing N ask last (answers O ask i)) j := by
  have hlt : i * n + j < (N + 1) * n := by
    have : (i + 1) * n ≤ (N + 1) * n := Nat.mul_le_mul_right n (by omega)
    rw [Nat.succ_mul] at this
    omega
  rw [thorough_base O N ask last zero need hlt.le, thorough, if_pos (by rw [answers_length]; exact hlt),
    inBlocks_question O (spreadQuestion_last hn) _ i hj, closing_answers O N ask last hi]

theorem thorough_hashed (hn : 0 < n) {i : Nat} (hi : i ≤ N) :
    hashed Question.text Prod.fst (thorough N ask last zero need) (answers O (thorough N ask last zero need) (i * n))
      = hashed Question.text Prod.fst ask (answers O ask i) := by
  rw [hashed_congr O Question.text Prod.fst (ask' := inBlocks n spreadQuestion (closing N ask last)) (M := (N + 1) * n)
      (fun l hl => by rw [thorough, if_pos hl]) (Nat.mul_le_mul_right n (by omega)),
    hashed_blocks O hn (spreadQuestion_last hn) spreadQuestion_text Prod.fst (closing N ask last) i,
    hashed_congr O Question.text Prod.fst (ask' := ask) (M := N) (fun l hl => by rw [closing, if_pos hl]) hi]

/-- The answers to the questions themselves. -/
theorem thorough_ends (hn : 0 < n) {M : Nat} (hM : (N + 1) * n ≤ M) :
    (blockEnds n ((answers O (thorough N ask last zero need) M).take ((N + 1) * n))).take N = answers O ask N := by
  rw [answers_prefix O _ hM, thorough_base O N ask last zero need le_rfl, blockEnds_answers O hn (spreadQuestion_last hn),
    Nat.mul_div_cancel _ hn, answers_prefix O _ (Nat.le_succ N), closing_answers O N ask last le_rfl]

/-- The needed hashes are asked for. -/
theorem thorough_needed (keccak : Bytes → Commitment)
    (hneed : Stepwise (need (answers O (thorough N ask last zero need) ((N + 1) * n))))
    (hL : ∀ m ∈ need (answers O (thorough N ask last zero need) ((N + 1) * n)) (hashOf keccak O), m.length ≤ L) {v : Nat}
    (hv : v < (need (answers O (thorough N ask last zero need) ((N + 1) * n)) (hashOf keccak O)).length) :
    (thorough N ask last zero need (answers O (thorough N ask last zero need) ((N + 1) * n + v))).text
      = some (need (answers O (thorough N ask last zero need) ((N + 1) * n)) (hashOf keccak O))[v] := by
  set A := thorough N ask last zero need with hA
  set list := need (answers O A ((N + 1) * n)) (hashOf keccak O) with hlist
  have key : ∀ v, v ≤ list.length →
      ((answers O A ((N + 1) * n + v)).drop ((N + 1) * n)).map Prod.fst = (list.take v).map (hashOf keccak O) ∧
      ∀ h : v < list.length, ∃ h' : (list[v]).length ≤ L, A (answers O A ((N + 1) * n + v)) = .inl ⟨list[v], h'⟩ := by
    intro v
    induction v with
    | zero =>
      intro _
      have h0 : ((answers O A ((N + 1) * n + 0)).drop ((N + 1) * n)).map Prod.fst = (list.take 0).map (hashOf keccak O) := by
        rw [List.drop_of_length_le (by rw [answers_length]; exact le_rfl)]
        rfl
      refine ⟨h0, fun h => ?_⟩
      have hm := hL _ (List.getElem_mem h)
      refine ⟨hm, ?_⟩
      have hnext := nextNeed_true zero hneed (hashOf keccak O) h
      rw [hA, thorough, ← hA, if_neg (by rw [answers_length]; omega)]
      simp only [answers_take, h0]
      simp only [hlist] at hm ⊢
      simp only [hnext]
      rw [dif_pos hm]
    | succ v ih =>
      intro hle
      obtain ⟨h1, h2⟩ := ih (by omega)
      obtain ⟨h3, h4⟩ := h2 hle
      have h0 : ((answers O A ((N + 1) * n + (v + 1))).drop ((N + 1) * n)).map Prod.fst
          = (list.take (v + 1)).map (hashOf keccak O) := by
        rw [← Nat.add_assoc, answers, List.drop_append_of_le_length (by rw [answers_length]; omega), List.map_append, h1,
          List.take_succ_eq_append_getElem hle, List.map_append, h4]
        congr 1
        simp only [List.map_cons, List.map_nil, hashOf, drawnHash, dif_pos h3]
      refine ⟨h0, fun h => ?_⟩
      have hm := hL _ (List.getElem_mem h)
      refine ⟨hm, ?_⟩
      have hnext := nextNeed_true zero hneed (hashOf keccak O) h
      rw [hA, thorough, ← hA, if_neg (by rw [answers_length]; omega)]
      simp only [answers_take, h0]
      simp only [hlist] at hm ⊢
      simp only [hnext]
      rw [dif_pos hm]
  obtain ⟨h1, h2⟩ := (key v hv.le).2 hv
  exact congrArg Question.text h2

/-- The messages of the last block are asked for in order. -/
theorem thorough_inOrder (hn : 0 < n) {l : Told (Said k) n} (hl : l.val.length = n)
    (hlast : last (answers O ask N) = l) {t : Nat} (ht : FirstNamed O ask N l t) {M : Nat} (hM : (N + 1) * n ≤ M) :
    ∃ time, InOrder (thorough N ask last zero need) (answers O (thorough N ask last zero need) M) l time ∧
      time 0 = t * n := by
  classical
  have hex : ∀ j, ∃ i, i ≤ N ∧ ∃ y, closing N ask last (answers O ask i) = .inr y ∧ y.first (j + 1) = l.first (j + 1) :=
    fun j => ⟨N, le_rfl, l, by rw [closing_end, hlast], rfl⟩
  let block := fun j => Nat.find (hex j)
  have hlt : ∀ j < n, block j * n + j < (N + 1) * n := by
    intro j hj
    have : (block j + 1) * n ≤ (N + 1) * n := Nat.mul_le_mul_right n (Nat.succ_le_succ (Nat.find_spec (hex j)).1)
    rw [Nat.succ_mul] at this
    omega
  refine ⟨fun j => block j * n + j, ⟨fun j hj => ?_, fun j hj i hi => ?_, fun j hj => ?_⟩, ?_⟩
  · obtain ⟨h1, y, h2, h3⟩ := Nat.find_spec (hex j)
    have := hlt j (by omega)
    refine ⟨by rw [answers_length]; omega, ?_⟩
    rw [answers_prefix O _ (by omega), thorough_question O N ask last zero need hn h1 (by omega), h2]
    exact congrArg Sum.inr h3
  · have hj' := hlt j (by omega)
    rw [answers_prefix O _ (by omega)]
    have hi' : i < (N + 1) * n := by omega
    obtain ⟨u, v, hv, rfl⟩ : ∃ u v, v < n ∧ i = u * n + v :=
      ⟨i / n, i % n, Nat.mod_lt _ hn, by rw [Nat.mul_comm]; exact (Nat.div_add_mod i n).symm⟩
    have hu : u ≤ N := by
      have : u * n < (N + 1) * n := by omega
      exact Nat.lt_succ_iff.mp (Nat.lt_of_mul_lt_mul_right this)
    rw [thorough_question O N ask last zero need hn hu hv]
    intro heq
    have hlen : ((l.first (j + 1)).val).length = j + 1 := by
      simp only [Told.first, List.length_take]
      omega
    cases hc : closing N ask last (answers O ask u) with
    | inl m =>
      rw [hc] at heq
      simp only [spreadQuestion] at heq
      split at heq
      · cases heq
      · have := congrArg (fun y : Told (Said k) n => y.val.length) (Sum.inr.inj heq)
        simp only [List.length_nil] at this
        omega
    | inr y =>
      rw [hc] at heq
      have heq := Sum.inr.inj heq
      have h1 := congrArg (fun y : Told (Said k) n => y.val.length) heq
      simp only [hlen] at h1
      simp only [Told.first, List.length_take] at h1
      have h2 := congrArg (fun z : Told (Said k) n => z.first (j + 1)) heq
      simp only [first_first, Nat.min_self] at h2
      rw [Nat.min_eq_left (by omega)] at h2
      have h3 : block j ≤ u := Nat.find_min' (hex j) ⟨hu, y, hc, h2⟩
      have h4 : block j * n ≤ u * n := Nat.mul_le_mul_right n h3
      omega
  · have : block j ≤ block (j + 1) := by
      obtain ⟨h1, y, h2, h3⟩ := Nat.find_spec (hex (j + 1))
      refine Nat.find_min' (hex j) ⟨h1, y, h2, ?_⟩
      have h4 := congrArg (fun z : Told (Said k) n => z.first (j + 1)) h3
      simpa only [first_first, Nat.min_eq_left (Nat.le_succ (j + 1))] using h4
    have := Nat.mul_le_mul_right n this
    omega
  · have : block 0 = t := by
      refine le_antisymm (Nat.find_min' (hex 0) ⟨ht.le, ?_⟩) (Nat.le_of_not_lt fun hlt => ?_)
      · rcases ht.named with rfl | ⟨y, h1, h2⟩
        · exact ⟨l, by rw [closing_end, hlast], rfl⟩
        · rcases Nat.lt_or_eq_of_le ht.le with h | rfl
          · exact ⟨y, by rw [closing_before O N ask last h, h1], h2⟩
          · exact ⟨l, by rw [closing_end, hlast], rfl⟩
      · obtain ⟨h1, y, h2, h3⟩ := Nat.find_spec (hex 0)
        rw [closing_before O N ask last (lt_of_lt_of_le hlt ht.le)] at h2
        exact ht.before _ hlt y h2 h3
    simp only [this, Nat.add_zero]

end facts
end Verif
