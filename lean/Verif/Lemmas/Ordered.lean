import Verif.Spec.Ordered
import Verif.Lemmas.Extract
import Verif.Lemmas.RoundByRound

/-!
# Rounds whose messages get their meaning when they are asked for
-/

namespace Verif
open Verif.Spec Verif.Proximity Random Finset

section ordered
variable {Y M D R W : Type} {n : Nat} {ask : List D → Y ⊕ Told M n} {mean : List D → Told M n → W} {rep : D → R}

/-- What the messages mean, each with the answers that were there when it was asked for. -/
def wordsOf (mean : List D → Told M n → W) (l : List D) (y : Told M n) (time : Nat → Nat) : List W :=
  (List.range y.val.length).map fun j => mean (l.take (time j)) (y.first (j + 1))

/-- The answers to the messages. -/
def answersTo [Inhabited R] (rep : D → R) (l : List D) (y : Told M n) (time : Nat → Nat) : List R :=
  (List.range y.val.length).map fun j => ((l[time j]?).map rep).getD default

theorem Spec.InOrder.time_lt {l : List D} {y : Told M n} {time : Nat → Nat} (h : InOrder ask l y time) {i j : Nat} (hij : i < j)
    (hj : j < y.val.length) : time i < time j := by
  induction j with
  | zero => omega
  | succ j ih =>
    rcases Nat.lt_succ_iff_lt_or_eq.mp hij with h1 | rfl
    · exact (ih h1 (by omega)).trans (h.order j hj)
    · exact h.order i hj

theorem Spec.InOrder.time_unique {l : List D} {y : Told M n} {time time' : Nat → Nat} (h : InOrder ask l y time)
    (h' : InOrder ask l y time') {j : Nat} (hj : j < y.val.length) : time j = time' j := by
  rcases lt_trichotomy (time j) (time' j) with hlt | he | hlt
  · exact absurd (h.asked j hj).2 (h'.first j hj _ hlt)
  · exact he
  · exact absurd (h'.asked j hj).2 (h.first j hj _ hlt)

theorem first_length {y : Told M n} {j : Nat} (hj : j ≤ y.val.length) : (y.first j).val.length = j := by
  rw [told_first_val, List.length_take]
  omega

/-- Up to the time of a message, those before it are asked for in order. -/
theorem Spec.InOrder.before {l : List D} {y : Told M n} {time : Nat → Nat} (h : InOrder ask l y time) {j : Nat}
    (hj : j < y.val.length) : InOrder ask (l.take (time j)) (y.first j) time := by
  have hl := first_length hj.le
  refine ⟨fun i hi => ?_, fun i hi k hk => ?_, fun i hi => ?_⟩
  · rw [hl] at hi
    have ht := h.time_lt hi hj
    have := (h.asked i (by omega)).1
    refine ⟨by rw [List.length_take]; omega, ?_⟩
    rw [List.take_take, min_eq_left ht.le, (h.asked i (by omega)).2, told_first_first, min_eq_left (by omega)]
  · rw [hl] at hi
    have ht := h.time_lt hi hj
    rw [List.take_take, min_eq_left (by omega), told_first_first, min_eq_left (by omega)]
    exact h.first i (by omega) k hk
  · rw [hl] at hi
    exact h.order i (by omega)

theorem wordsOf_before {l : List D} {y : Told M n} {time : Nat → Nat} (h : InOrder ask l y time) {j : Nat}
    (hj : j < y.val.length) : wordsOf mean (l.take (time j)) (y.first j) time ++ [mean (l.take (time j)) (y.first (j + 1))]
      = wordsOf mean l (y.first (j + 1)) time := by
  unfold wordsOf
  rw [first_length hj.le, first_length (show j + 1 ≤ y.val.length from hj), List.range_succ, List.map_append]
  congr 1
  · refine List.map_congr_left fun i hi => ?_
    have hi := List.mem_range.1 hi
    rw [List.take_take, min_eq_left (h.time_lt hi hj).le, told_first_first, told_first_first, min_eq_left (by omega),
      min_eq_left (by omega)]
  · rw [List.map_cons, List.map_nil, told_first_first, min_self]

theorem answersTo_before [Inhabited R] {l : List D} {y : Told M n} {time : Nat → Nat} (h : InOrder ask l y time) {j : Nat}
    (hj : j < y.val.length) {d : D} (hd : l[time j]? = some d) :
    answersTo rep (l.take (time j)) (y.first j) time ++ [rep d] = answersTo rep l (y.first (j + 1)) time := by
  unfold answersTo
  rw [first_length hj.le, first_length (show j + 1 ≤ y.val.length from hj), List.range_succ, List.map_append]
  congr 1
  · refine List.map_congr_left fun i hi => ?_
    have hi := List.mem_range.1 hi
    rw [List.getElem?_take_of_lt (h.time_lt hi hj)]
  · rw [List.map_cons, List.map_nil, hd]
    rfl

variable [Fintype Y] [DecidableEq Y] [Fintype M] [DecidableEq M] [Fintype D] [Nonempty D] [Inhabited R]

/-- If every round leaves a lost game lost but for a small probability, whatever the message means when it is asked for,
then asking for messages in order until the game is not lost succeeds with at most this probability for every question. -/
theorem ordered_rounds (lost : List W → List R → Prop) {p : ℚ} (hp0 : 0 ≤ p) (h0 : lost [] [])
    (hstep : ∀ ws rs, ws.length = rs.length → ws.length < n → lost ws rs →
      ∀ w, probability D (fun d => ¬ lost (ws ++ [w]) (rs ++ [rep d])) ≤ p) (N : Nat) :
    probability (Y ⊕ Told M n → D) (fun O => ∃ y time, InOrder ask (answers O ask N) y time ∧
      ¬ lost (wordsOf mean (answers O ask N) y time) (answersTo rep (answers O ask N) y time)) ≤ N * p := by
  classical
  let B (l : List D) (d : D) : Prop := ∃ y time j, j < y.val.length ∧ y.first (j + 1) = y ∧ ask l = .inr y ∧
    InOrder ask l (y.first j) time ∧
    lost (wordsOf mean l (y.first j) time) (answersTo rep l (y.first j) time) ∧
    ¬ lost (wordsOf mean l (y.first j) time ++ [mean l y]) (answersTo rep l (y.first j) time ++ [rep d])
  have hB : ∀ l, probability D (B l) ≤ p := by
    intro l
    by_cases hex : ∃ d, B l d
    swap
    · refine (probability_mono (Q := fun _ => False) fun d hd => hex ⟨d, hd⟩).trans ?_
      rw [probability_false]
      exact hp0
    obtain ⟨-, y, time, j, hj, hy, hask, hio, hlost, -⟩ := hex
    have hl := first_length hj.le
    refine (probability_mono ?_).trans (hstep _ _ (by simp [wordsOf, answersTo]) (by
      unfold wordsOf
      rw [List.length_map, List.length_range, hl]
      exact hj.trans_le y.property) hlost (mean l y))
    rintro d ⟨y', time', j', hj', hy', hask', hio', -, hnot⟩
    obtain rfl : y = y' := Sum.inr.inj (hask.symm.trans hask')
    have e1 : y.val.length = j + 1 := by
      have := congrArg (fun z : Told M n => z.val.length) hy
      simp only [told_first_val, List.length_take] at this
      omega
    have e2 : y.val.length = j' + 1 := by
      have := congrArg (fun z : Told M n => z.val.length) hy'
      simp only [told_first_val, List.length_take] at this
      omega
    obtain rfl : j = j' := by omega
    have ht : ∀ i ∈ List.range (y.first j).val.length, time' i = time i := fun i hi =>
      hio'.time_unique hio (List.mem_range.1 hi)
    have g1 : wordsOf mean l (y.first j) time' = wordsOf mean l (y.first j) time :=
      List.map_congr_left fun i hi => by rw [ht i hi]
    have g2 : answersTo rep l (y.first j) time' = answersTo rep l (y.first j) time :=
      List.map_congr_left fun i hi => by rw [ht i hi]
    rwa [g1, g2] at hnot
  have h1 : probability (Y ⊕ Told M n → D) (fun O => ∃ i ∈ range N,
      (∀ j < i, ask (answers O ask j) ≠ ask (answers O ask i)) ∧ B (answers O ask i) (O (ask (answers O ask i)))) ≤ N * p := by
    refine (probability_exists_le _ _).trans
      ((Finset.sum_le_sum fun i _ => probability_new_given ask B i fun l _ => hB l).trans ?_)
    rw [Finset.sum_const, card_range, nsmul_eq_mul]
  refine (probability_mono fun O hO => ?_).trans h1
  obtain ⟨y, time, hio, hnot⟩ := hO
  have hex : ∃ j < y.val.length,
      lost (wordsOf mean (answers O ask N) (y.first j) time) (answersTo rep (answers O ask N) (y.first j) time) ∧
      ¬ lost (wordsOf mean (answers O ask N) (y.first (j + 1)) time)
        (answersTo rep (answers O ask N) (y.first (j + 1)) time) := by
    by_contra hcon
    push Not at hcon
    have hall : ∀ j ≤ y.val.length,
        lost (wordsOf mean (answers O ask N) (y.first j) time) (answersTo rep (answers O ask N) (y.first j) time) := by
      intro j
      induction j with
      | zero => intro _; simpa [wordsOf, answersTo] using h0
      | succ j ih => intro hj; exact hcon j (by omega) (ih (by omega))
    have := hall _ le_rfl
    rw [told_first_self y le_rfl] at this
    exact hnot this
  obtain ⟨j, hj, h2, h3⟩ := hex
  obtain ⟨ht, hask⟩ := hio.asked j hj
  rw [answers_length] at ht
  have htake : ∀ i ≤ N, (answers O ask N).take i = answers O ask i := fun i hi => answers_prefix O ask hi
  have hget := answers_getElem O ask ht
  have hbef := hio.before hj
  have w1 := wordsOf_before (mean := mean) hio hj
  have w2 := answersTo_before (rep := rep) hio hj hget
  rw [htake _ ht.le] at hask hbef w1 w2
  refine ⟨time j, mem_range.2 ht, fun i hi => ?_, y.first (j + 1), time, j, ?_, ?_, hask, ?_, ?_, ?_⟩
  · have := hio.first j hj i hi
    rw [htake _ (by omega)] at this
    rw [hask]
    exact this
  · rw [first_length (show j + 1 ≤ y.val.length from hj)]
    omega
  · rw [told_first_first, min_self]
  · rw [told_first_first, min_eq_left (by omega)]
    exact hbef
  · rw [told_first_first, min_eq_left (by omega)]
    have v1 : wordsOf mean (answers O ask (time j)) (y.first j) time = wordsOf mean (answers O ask N) (y.first j) time := by
      unfold wordsOf
      refine List.map_congr_left fun i hi => ?_
      have hi := List.mem_range.1 hi
      rw [first_length hj.le] at hi
      have := hio.time_lt hi hj
      rw [answers_prefix O ask this.le, answers_prefix O ask (by omega)]
    have v2 : answersTo rep (answers O ask (time j)) (y.first j) time = answersTo rep (answers O ask N) (y.first j) time := by
      unfold answersTo
      refine List.map_congr_left fun i hi => ?_
      have hi := List.mem_range.1 hi
      rw [first_length hj.le] at hi
      have := hio.time_lt hi hj
      rw [answers_getElem O ask this, answers_getElem O ask (by omega)]
    rw [v1, v2]
    exact h2
  · rw [told_first_first, min_eq_left (by omega), w1, w2]
    exact h3

end ordered

end Verif
