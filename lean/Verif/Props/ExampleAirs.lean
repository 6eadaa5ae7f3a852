import Verif.Lemmas.ExampleAirs
import Verif.Lemmas.Permutation
import Verif.Lemmas.TwoAdic
import Verif.Spec.Replay
import Verif.Props.TraceTable

/-!
# C54 and C56: the example AIRs

The AIRs of `src/starks/example/` against the sequences of `Verif/Spec/ExampleAirs.lean`.
-/

namespace Verif.Props
open Verif.Spec Verif.ExampleAirs
variable {F : Type} [Field F]

section helpers
variable {rows : List (List F)}

theorem row_one (hw : ∀ r ∈ rows, r.length = 1) {i : Nat} (hi : i < rows.length) :
    rows[i]? = some [cell rows i 0] := by
  have h := row_length hw hi
  rw [List.getElem?_eq_getElem hi]
  unfold cell
  rw [List.getD_eq_getElem _ _ hi] at *
  obtain ⟨a, ha⟩ := List.length_eq_one_iff.mp h
  rw [ha]
  rfl

theorem row_two (hw : ∀ r ∈ rows, r.length = 2) {i : Nat} (hi : i < rows.length) :
    rows[i]? = some [cell rows i 0, cell rows i 1] := by
  have h := row_length hw hi
  rw [List.getElem?_eq_getElem hi]
  unfold cell
  rw [List.getD_eq_getElem _ _ hi] at *
  obtain ⟨a, b, ha⟩ := List.length_eq_two.mp h
  rw [ha]
  rfl

theorem cell_of_row {i c : Nat} {x : F} (h : ∃ row, rows[i]? = some row ∧ row[c]? = some x) :
    cell rows i c = x := by
  obtain ⟨row, h1, h2⟩ := h
  simp [cell, List.getD, h1, h2]

theorem row_of_cell {w i c : Nat} {x : F} (hw : ∀ r ∈ rows, r.length = w) (hi : i < rows.length) (hc : c < w)
    (h : cell rows i c = x) : ∃ row, rows[i]? = some row ∧ row[c]? = some x := by
  have hl := row_length hw hi
  refine ⟨rows[i], List.getElem?_eq_getElem hi, ?_⟩
  rw [List.getD_eq_getElem _ _ hi] at hl
  rw [List.getElem?_eq_getElem (by omega), ← h]
  simp [cell, List.getD, List.getElem?_eq_getElem hi, List.getElem?_eq_getElem (show c < rows[i].length by omega)]

end helpers

/-- A recurrence of order two with the Fibonacci step is the Fibonacci sequence. -/
theorem eq_fibSeq {s : Nat → F} {a0 a1 : F} {n : Nat} (h0 : s 0 = a0) (h1 : s 1 = a1)
    (hs : ∀ i, i + 2 < n → s (i + 2) - s (i + 1) - s i = 0) : ∀ i < n, s i = fibSeq a0 a1 i
  | 0, _ => h0
  | 1, _ => h1
  | i + 2, hi => by
    have e1 := eq_fibSeq h0 h1 hs (i + 1) (by omega)
    have e0 := eq_fibSeq h0 h1 hs i (by omega)
    have := hs i hi
    rw [fibSeq, ← e1, ← e0]
    linear_combination this

/-- **C54**, one column: a trace of at least two rows satisfies the Fibonacci AIR exactly when its rows
are the terms of the Fibonacci sequence with the public first terms. -/
theorem C54_fibonacci {pi : FibonacciPublicInputs F} {opts : ProofOptions} {air : Air F Unit} {n : Nat}
    (hair : fibonacci n pi opts = .ok air) {rows : List (List F)} (hn : rows.length = n) (h2 : 2 ≤ n)
    (hw : ∀ r ∈ rows, r.length = 1) :
    Satisfies air rows 1 () ↔ ∀ i < n, rows[i]? = some [fibSeq pi.a0 pi.a1 i] := by
  obtain rfl := Outcome.ok.inj hair
  have hev : ∀ i, fibonacciTransition (frameAt rows 1 [0, 1, 2] i) ()
      = .ok [cell rows ((i + 2) % rows.length) 0 - cell rows ((i + 1) % rows.length) 0
        - cell rows (i % rows.length) 0] := by
    intro i
    obtain ⟨fr, hf, hl, hfw, hc⟩ := frameAt_eq hw (by omega) [0, 1, 2] i
    rw [hf, fibonacciTransition_eq (by rw [hl]; decide) hfw, hc 0 0 0 rfl, hc 1 1 0 rfl, hc 2 2 0 rfl]
    rfl
  constructor
  · rintro ⟨⟨cs, hcs, hb⟩, ht⟩
    simp only [Outcome.ok.injEq] at hcs
    subst hcs
    have h0 := cell_of_row (hb ⟨0, 0, pi.a0⟩ (by simp))
    have h1 := cell_of_row (hb ⟨0, 1, pi.a1⟩ (by simp))
    have hall : ∀ i < n, cell rows i 0 = fibSeq pi.a0 pi.a1 i := by
      refine eq_fibSeq (s := fun i => cell rows i 0) h0 h1 fun i hi => ?_
      obtain ⟨ev, he, hx⟩ := ht i (by omega)
      simp only at he
      rw [hev, Nat.mod_eq_of_lt (show i + 2 < rows.length by omega),
        Nat.mod_eq_of_lt (show i + 1 < rows.length by omega), Nat.mod_eq_of_lt (show i < rows.length by omega),
        Outcome.ok.injEq] at he
      subst he
      simpa using hx 0 2 rfl (by omega)
    intro i hi
    rw [row_one hw (by omega), hall i hi]
  · intro h
    have hcell : ∀ i < n, cell rows i 0 = fibSeq pi.a0 pi.a1 i := fun i hi => by
      simp [cell, List.getD, h i hi]
    refine ⟨⟨_, rfl, ?_⟩, ?_⟩
    · intro c hc
      simp only [List.mem_cons, List.not_mem_nil, or_false] at hc
      rcases hc with rfl | rfl
      · exact ⟨_, h 0 (by omega), rfl⟩
      · exact ⟨_, h 1 (by omega), rfl⟩
    · intro i hi
      refine ⟨_, hev i, ?_⟩
      intro k x hx hlt
      match k with
      | 0 =>
        obtain rfl : 2 = x := by simpa using hx
        rw [Nat.mod_eq_of_lt hlt, Nat.mod_eq_of_lt (show i + 1 < rows.length by omega), Nat.mod_eq_of_lt hi,
          hcell _ (by omega), hcell _ (by omega), hcell _ (by omega), fibSeq]
        simp
      | k + 1 => simp at hx

/-- A recurrence over pairs is the Fibonacci sequence, two terms a row. -/
theorem eq_fibSeq_pairs {s t : Nat → F} {a0 a1 : F} {n : Nat} (h0 : s 0 = a0) (h1 : t 0 = a1)
    (hs : ∀ i, i + 1 < n → s (i + 1) - s i - t i = 0 ∧ t (i + 1) - t i - s (i + 1) = 0) :
    ∀ i < n, s i = fibSeq a0 a1 (2 * i) ∧ t i = fibSeq a0 a1 (2 * i + 1)
  | 0, _ => ⟨h0, h1⟩
  | i + 1, hi => by
    obtain ⟨e0, e1⟩ := eq_fibSeq_pairs h0 h1 hs i (by omega)
    obtain ⟨d0, d1⟩ := hs i hi
    have f0 : s (i + 1) = fibSeq a0 a1 (2 * i + 2) := by
      rw [fibSeq, ← e0, ← e1]
      linear_combination d0
    refine ⟨f0, ?_⟩
    rw [show 2 * (i + 1) + 1 = 2 * i + 1 + 2 from by ring, fibSeq, ← e1, show 2 * i + 1 + 1 = 2 * i + 2 from rfl,
      ← f0]
    linear_combination d1

/-- **C54**, two columns: row `i` holds the terms `2i` and `2i + 1` of the sequence. -/
theorem C54_fibonacci_two_columns {pi : FibonacciPublicInputs F} {opts : ProofOptions} {air : Air F Unit}
    {n : Nat} (hair : fibonacci2 n pi opts = .ok air) {rows : List (List F)} (hn : rows.length = n)
    (h1 : 1 ≤ n) (hw : ∀ r ∈ rows, r.length = 2) :
    Satisfies air rows 2 () ↔
      ∀ i < n, rows[i]? = some [fibSeq pi.a0 pi.a1 (2 * i), fibSeq pi.a0 pi.a1 (2 * i + 1)] := by
  obtain rfl := Outcome.ok.inj hair
  have hev : ∀ i, fibonacci2Transition (frameAt rows 2 [0, 1] i) ()
      = .ok [cell rows ((i + 1) % rows.length) 0 - cell rows (i % rows.length) 0
          - cell rows (i % rows.length) 1,
        cell rows ((i + 1) % rows.length) 1 - cell rows (i % rows.length) 1
          - cell rows ((i + 1) % rows.length) 0] := by
    intro i
    obtain ⟨fr, hf, hl, hfw, hc⟩ := frameAt_eq hw (by omega) [0, 1] i
    rw [hf, fibonacci2Transition_eq (by rw [hl]; decide) hfw, hc 0 0 0 rfl, hc 1 1 0 rfl, hc 0 0 1 rfl,
      hc 1 1 1 rfl]
    rfl
  constructor
  · rintro ⟨⟨cs, hcs, hb⟩, ht⟩
    simp only [Outcome.ok.injEq] at hcs
    subst hcs
    have e0 := cell_of_row (hb ⟨0, 0, pi.a0⟩ (by simp))
    have e1 := cell_of_row (hb ⟨1, 0, pi.a1⟩ (by simp))
    have hall := eq_fibSeq_pairs (s := fun i => cell rows i 0) (t := fun i => cell rows i 1) (n := n) e0 e1
      fun i hi => by
        obtain ⟨ev, he, hx⟩ := ht i (by omega)
        simp only at he
        rw [hev, Nat.mod_eq_of_lt (show i + 1 < rows.length by omega),
          Nat.mod_eq_of_lt (show i < rows.length by omega), Outcome.ok.injEq] at he
        subst he
        have a := hx 0 1 rfl (by omega)
        have b := hx 1 1 rfl (by omega)
        simp only [List.getElem?_cons_zero, List.getElem?_cons_succ, Option.some.injEq] at a b
        exact ⟨a, b⟩
    intro i hi
    rw [row_two hw (by omega), (hall i hi).1, (hall i hi).2]
  · intro h
    have hcell : ∀ i < n, cell rows i 0 = fibSeq pi.a0 pi.a1 (2 * i) ∧
        cell rows i 1 = fibSeq pi.a0 pi.a1 (2 * i + 1) := fun i hi => by
      simp [cell, List.getD, h i hi]
    refine ⟨⟨_, rfl, ?_⟩, ?_⟩
    · intro c hc
      simp only [List.mem_cons, List.not_mem_nil, or_false] at hc
      rcases hc with rfl | rfl
      · exact ⟨_, h 0 (by omega), rfl⟩
      · exact ⟨_, h 0 (by omega), rfl⟩
    · intro i hi
      refine ⟨_, hev i, ?_⟩
      intro k x hx hlt
      match k with
      | 0 =>
        obtain rfl : 1 = x := by simpa using hx
        rw [Nat.mod_eq_of_lt hlt, Nat.mod_eq_of_lt hi]
        simp only [List.getElem?_cons_zero, Option.some.injEq, (hcell i (by omega)).1, (hcell i (by omega)).2,
          (hcell (i + 1) (by omega)).1]
        rw [show 2 * (i + 1) = 2 * i + 2 from by ring, fibSeq]
        ring
      | 1 =>
        obtain rfl : 1 = x := by simpa using hx
        rw [Nat.mod_eq_of_lt hlt, Nat.mod_eq_of_lt hi]
        simp only [List.getElem?_cons_zero, List.getElem?_cons_succ, Option.some.injEq, (hcell i (by omega)).2,
          (hcell (i + 1) (by omega)).1, (hcell (i + 1) (by omega)).2]
        rw [show 2 * (i + 1) + 1 = 2 * i + 1 + 2 from by ring, fibSeq,
          show 2 * i + 1 + 1 = 2 * (i + 1) from by ring]
        ring
      | k + 2 => simp at hx

/-- **C54**, quadratic: row `i` holds the first term squared `i` times. -/
theorem C54_quadratic {a0 : F} {opts : ProofOptions} {air : Air F Unit} {n : Nat}
    (hair : quadratic n a0 opts = .ok air) {rows : List (List F)} (hn : rows.length = n) (h1 : 1 ≤ n)
    (hw : ∀ r ∈ rows, r.length = 1) :
    Satisfies air rows 1 () ↔ ∀ i < n, rows[i]? = some [squares a0 i] := by
  obtain rfl := Outcome.ok.inj hair
  have hev : ∀ i, quadraticTransition (frameAt rows 1 [0, 1] i) ()
      = .ok [cell rows ((i + 1) % rows.length) 0
        - cell rows (i % rows.length) 0 * cell rows (i % rows.length) 0] := by
    intro i
    obtain ⟨fr, hf, hl, hfw, hc⟩ := frameAt_eq hw (by omega) [0, 1] i
    rw [hf, quadraticTransition_eq (by rw [hl]; decide) hfw, hc 0 0 0 rfl, hc 1 1 0 rfl]
    rfl
  constructor
  · rintro ⟨⟨cs, hcs, hb⟩, ht⟩
    simp only [Outcome.ok.injEq] at hcs
    subst hcs
    have e0 := cell_of_row (hb ⟨0, 0, a0⟩ (by simp))
    have hall : ∀ i < n, cell rows i 0 = squares a0 i := by
      intro i
      induction i with
      | zero => intro _; simpa [squares] using e0
      | succ i ih =>
        intro hi
        obtain ⟨ev, he, hx⟩ := ht i (by omega)
        simp only at he
        rw [hev, Nat.mod_eq_of_lt (show i + 1 < rows.length by omega),
          Nat.mod_eq_of_lt (show i < rows.length by omega), Outcome.ok.injEq] at he
        subst he
        have a := hx 0 1 rfl (by omega)
        simp only [List.getElem?_cons_zero, Option.some.injEq, ih (by omega)] at a
        rw [sub_eq_zero.mp a]
        simp only [squares]
        rw [← pow_add, ← two_mul, ← pow_succ']
    intro i hi
    rw [row_one hw (by omega), hall i hi]
  · intro h
    have hcell : ∀ i < n, cell rows i 0 = squares a0 i := fun i hi => by
      simp [cell, List.getD, h i hi]
    refine ⟨⟨_, rfl, ?_⟩, ?_⟩
    · intro c hc
      simp only [List.mem_cons, List.not_mem_nil, or_false] at hc
      subst hc
      exact ⟨_, h 0 (by omega), by simp [squares]⟩
    · intro i hi
      refine ⟨_, hev i, ?_⟩
      intro k x hx hlt
      match k with
      | 0 =>
        obtain rfl : 1 = x := by simpa using hx
        rw [Nat.mod_eq_of_lt hlt, Nat.mod_eq_of_lt hi, hcell _ (by omega), hcell _ (by omega)]
        simp only [List.getElem?_cons_zero, Option.some.injEq, squares]
        rw [← pow_add, ← two_mul, ← pow_succ', sub_self]
      | k + 1 => simp at hx

/-- **C54**, dummy: the first column is boolean and the second the Fibonacci sequence from 1, 1. -/
theorem C54_dummy {opts : ProofOptions} {air : Air F Unit} {n : Nat}
    (hair : dummy n () opts = .ok air) {rows : List (List F)} (hn : rows.length = n) (h2 : 2 ≤ n)
    (hw : ∀ r ∈ rows, r.length = 2) :
    Satisfies air rows 2 () ↔ ∀ i < n, ∃ b : F, (b = 0 ∨ b = 1) ∧ rows[i]? = some [b, fibSeq 1 1 i] := by
  obtain rfl := Outcome.ok.inj hair
  have hev : ∀ i, dummyTransition (frameAt rows 2 [0, 1, 2] i) ()
      = .ok [cell rows (i % rows.length) 0 * (cell rows (i % rows.length) 0 - 1),
        cell rows ((i + 2) % rows.length) 1 - cell rows ((i + 1) % rows.length) 1
          - cell rows (i % rows.length) 1] := by
    intro i
    obtain ⟨fr, hf, hl, hfw, hc⟩ := frameAt_eq hw (by omega) [0, 1, 2] i
    rw [hf, dummyTransition_eq (by rw [hl]; decide) hfw, hc 0 0 0 rfl, hc 0 0 1 rfl, hc 1 1 1 rfl,
      hc 2 2 1 rfl]
    rfl
  constructor
  · rintro ⟨⟨cs, hcs, hb⟩, ht⟩
    simp only [Outcome.ok.injEq] at hcs
    subst hcs
    have e0 := cell_of_row (hb ⟨1, 0, 1⟩ (by simp))
    have e1 := cell_of_row (hb ⟨1, 1, 1⟩ (by simp))
    have hall : ∀ i < n, cell rows i 1 = fibSeq 1 1 i := by
      refine eq_fibSeq (s := fun i => cell rows i 1) e0 e1 fun i hi => ?_
      obtain ⟨ev, he, hx⟩ := ht i (by omega)
      simp only at he
      rw [hev, Nat.mod_eq_of_lt (show i + 2 < rows.length by omega),
        Nat.mod_eq_of_lt (show i + 1 < rows.length by omega), Nat.mod_eq_of_lt (show i < rows.length by omega),
        Outcome.ok.injEq] at he
      subst he
      simpa using hx 1 2 rfl (by omega)
    intro i hi
    refine ⟨cell rows i 0, ?_, by rw [row_two hw (by omega), hall i hi]⟩
    obtain ⟨ev, he, hx⟩ := ht i (by omega)
    simp only at he
    rw [hev, Nat.mod_eq_of_lt (show i < rows.length by omega), Outcome.ok.injEq] at he
    subst he
    have := hx 0 0 rfl (by omega)
    simp only [List.getElem?_cons_zero, Option.some.injEq, mul_eq_zero, sub_eq_zero] at this
    exact this
  · intro h
    have hcell : ∀ i < n, cell rows i 0 * (cell rows i 0 - 1) = 0 ∧ cell rows i 1 = fibSeq 1 1 i :=
      fun i hi => by
        obtain ⟨b, hb, hr⟩ := h i hi
        rcases hb with rfl | rfl <;> simp [cell, List.getD, hr]
    refine ⟨⟨_, rfl, ?_⟩, ?_⟩
    · intro c hc
      simp only [List.mem_cons, List.not_mem_nil, or_false] at hc
      rcases hc with rfl | rfl
      · obtain ⟨b, -, hr⟩ := h 0 (by omega)
        exact ⟨_, hr, rfl⟩
      · obtain ⟨b, -, hr⟩ := h 1 (by omega)
        exact ⟨_, hr, rfl⟩
    · intro i hi
      refine ⟨_, hev i, ?_⟩
      intro k x hx hlt
      match k with
      | 0 =>
        rw [Nat.mod_eq_of_lt hi]
        simp only [List.getElem?_cons_zero, (hcell i (by omega)).1]
      | 1 =>
        obtain rfl : 2 = x := by simpa using hx
        rw [Nat.mod_eq_of_lt hlt, Nat.mod_eq_of_lt (show i + 1 < rows.length by omega), Nat.mod_eq_of_lt hi,
          (hcell _ (by omega)).2, (hcell _ (by omega)).2, (hcell _ (by omega)).2, fibSeq]
        simp
      | k + 2 => simp at hx

/-! ## The trace generators -/

theorem fibonacciLoop_eq (a0 a1 : F) {n : Nat} (hn : 2 ≤ n) :
    fibonacciLoop a0 a1 n = .ok ((List.range n).map (fibSeq a0 a1)) := by
  obtain ⟨m, rfl⟩ : ∃ m, n = m + 2 := ⟨n - 2, by omega⟩
  unfold fibonacciLoop
  simp only [Nat.add_sub_cancel]
  clear hn
  induction m with
  | zero => rfl
  | succ m ih =>
    rw [List.range'_1_concat, List.foldlM_append, ih, Outcome.bind_ok]
    have h1 : (index ((List.range (m + 2)).map (fibSeq a0 a1)) (2 + m - 1) : Outcome Empty F)
      = .ok (fibSeq a0 a1 (m + 1)) := index_ok (by
        rw [List.getElem?_map, List.getElem?_range (by omega), show 2 + m - 1 = m + 1 by omega]; rfl)
    have h2 : (index ((List.range (m + 2)).map (fibSeq a0 a1)) (2 + m - 2) : Outcome Empty F)
      = .ok (fibSeq a0 a1 m) := index_ok (by
        rw [List.getElem?_map, List.getElem?_range (by omega), show 2 + m - 2 = m by omega]; rfl)
    simp only [List.foldlM_cons, List.foldlM_nil, h1, h2, Outcome.bind_ok, Outcome.pure_eq]
    rw [show m + 1 + 2 = (m + 2) + 1 from rfl, List.range_succ (n := m + 2), List.map_append]
    rfl

/-- **C54**: `fibonacci_trace` produces the rows of the Fibonacci sequence. -/
theorem C54_fibonacci_trace (a0 a1 : F) {n : Nat} (hn : 2 ≤ n) :
    ∃ t, fibonacciTrace a0 a1 n = .ok t ∧ t.nCols = 1 ∧ t.nRows = n ∧
      t.rows = .ok ((List.range n).map fun i => [fibSeq a0 a1 i]) ∧
      ∀ opts air, fibonacci n ⟨a0, a1⟩ opts = .ok air →
        Satisfies air ((List.range n).map fun i => [fibSeq a0 a1 i]) 1 () := by
  refine ⟨TraceTable.ofRows ((List.range n).map fun i => [fibSeq a0 a1 i]) 1, ?_, rfl, ?_, ?_, ?_⟩
  · unfold fibonacciTrace
    rw [fibonacciLoop_eq a0 a1 hn, Outcome.bind_ok,
      TraceTable.newFromCols_ok _ n (by simp) (by simp)]
    congr 2
    refine List.map_congr_left fun i hi => ?_
    simp [TraceTable.rowOf, List.mem_range.mp hi]
  · rw [TraceTable.nRows_ofRows] <;> simp
  · exact rows_ofRows _ _ (by omega) (by simp)
  · intro opts air hair
    exact (C54_fibonacci hair (by simp) hn (by simp)).mpr fun i hi => by simp [List.getElem?_range hi]

/-- **C54**: `fibonacci_trace_2_columns` produces two terms a row. -/
theorem C54_fibonacci_two_columns_trace (a0 a1 : F) {n : Nat} (hn : 1 ≤ n) :
    ∃ t, fibonacci2Trace a0 a1 n = .ok t ∧ t.nCols = 2 ∧ t.nRows = n ∧
      t.rows = .ok ((List.range n).map fun i => [fibSeq a0 a1 (2 * i), fibSeq a0 a1 (2 * i + 1)]) ∧
      ∀ opts air, fibonacci2 n ⟨a0, a1⟩ opts = .ok air →
        Satisfies air ((List.range n).map fun i => [fibSeq a0 a1 (2 * i), fibSeq a0 a1 (2 * i + 1)]) 2 () := by
  have hloop : (List.range' 1 (n - 1)).foldlM (fun (ret : List F × List F) i => do
        let x ← index ret.1 (i - 1)
        let y ← index ret.2 (i - 1)
        return (ret.1 ++ [x + y], ret.2 ++ [x + y + y])) ([a0], [a1])
      = (.ok ((List.range n).map fun i => fibSeq a0 a1 (2 * i),
          (List.range n).map fun i => fibSeq a0 a1 (2 * i + 1)) : Outcome Empty _) := by
    obtain ⟨m, rfl⟩ : ∃ m, n = m + 1 := ⟨n - 1, by omega⟩
    simp only [Nat.add_sub_cancel]
    clear hn
    induction m with
    | zero => rfl
    | succ m ih =>
      rw [List.range'_1_concat, List.foldlM_append, ih, Outcome.bind_ok]
      have h1 : (index ((List.range (m + 1)).map fun i => fibSeq a0 a1 (2 * i)) (1 + m - 1) : Outcome Empty F)
        = .ok (fibSeq a0 a1 (2 * m)) := index_ok (by
          rw [List.getElem?_map, List.getElem?_range (by omega), show 1 + m - 1 = m by omega]; rfl)
      have h2 : (index ((List.range (m + 1)).map fun i => fibSeq a0 a1 (2 * i + 1)) (1 + m - 1)
          : Outcome Empty F) = .ok (fibSeq a0 a1 (2 * m + 1)) := index_ok (by
          rw [List.getElem?_map, List.getElem?_range (by omega), show 1 + m - 1 = m by omega]; rfl)
      simp only [List.foldlM_cons, List.foldlM_nil, h1, h2, Outcome.bind_ok, Outcome.pure_eq]
      rw [List.range_succ (n := m + 1)]
      simp only [List.map_append, List.map_cons, List.map_nil]
      have e0 : fibSeq a0 a1 (2 * (m + 1)) = fibSeq a0 a1 (2 * m) + fibSeq a0 a1 (2 * m + 1) := by
        rw [show 2 * (m + 1) = 2 * m + 2 from by ring, fibSeq, add_comm]
      rw [show 2 * (m + 1) + 1 = 2 * m + 1 + 2 from by ring, fibSeq,
        show 2 * m + 1 + 1 = 2 * (m + 1) from by ring, e0]
  refine ⟨TraceTable.ofRows ((List.range n).map fun i => [fibSeq a0 a1 (2 * i), fibSeq a0 a1 (2 * i + 1)]) 2,
    ?_, rfl, ?_, ?_, ?_⟩
  · unfold fibonacci2Trace
    rw [hloop, Outcome.bind_ok, TraceTable.newFromCols_ok _ n (by simp) (by simp)]
    congr 2
    refine List.map_congr_left fun i hi => ?_
    simp [TraceTable.rowOf, List.mem_range.mp hi]
  · rw [TraceTable.nRows_ofRows] <;> simp
  · exact rows_ofRows _ _ (by omega) (by simp)
  · intro opts air hair
    exact (C54_fibonacci_two_columns hair (by simp) hn (by simp)).mpr fun i hi => by simp [List.getElem?_range hi]

/-- **C54**: `quadratic_trace` produces the repeated squares. -/
theorem C54_quadratic_trace (a0 : F) {n : Nat} (hn : 1 ≤ n) :
    ∃ t, quadraticTrace a0 n = .ok t ∧ t.nCols = 1 ∧ t.nRows = n ∧
      t.rows = .ok ((List.range n).map fun i => [squares a0 i]) ∧
      ∀ opts air, quadratic n a0 opts = .ok air →
        Satisfies air ((List.range n).map fun i => [squares a0 i]) 1 () := by
  have hloop : (List.range' 1 (n - 1)).foldlM (fun (ret : List F) i => do
        let x ← index ret (i - 1)
        return ret ++ [x * x]) [a0] = (.ok ((List.range n).map (squares a0)) : Outcome Empty _) := by
    obtain ⟨m, rfl⟩ : ∃ m, n = m + 1 := ⟨n - 1, by omega⟩
    simp only [Nat.add_sub_cancel]
    clear hn
    induction m with
    | zero => simp [squares, Outcome.pure_eq]
    | succ m ih =>
      rw [List.range'_1_concat, List.foldlM_append, ih, Outcome.bind_ok]
      have h1 : (index ((List.range (m + 1)).map (squares a0)) (1 + m - 1) : Outcome Empty F)
        = .ok (squares a0 m) := index_ok (by
          rw [List.getElem?_map, List.getElem?_range (by omega), show 1 + m - 1 = m by omega]; rfl)
      simp only [List.foldlM_cons, List.foldlM_nil, h1, Outcome.bind_ok, Outcome.pure_eq]
      rw [List.range_succ (n := m + 1)]
      simp only [List.map_append, List.map_cons, List.map_nil, squares]
      rw [← pow_add, ← two_mul, ← pow_succ']
  refine ⟨TraceTable.ofRows ((List.range n).map fun i => [squares a0 i]) 1, ?_, rfl, ?_, ?_, ?_⟩
  · unfold quadraticTrace
    rw [hloop, Outcome.bind_ok, TraceTable.newFromCols_ok _ n (by simp) (by simp)]
    congr 2
    refine List.map_congr_left fun i hi => ?_
    simp [TraceTable.rowOf, List.mem_range.mp hi]
  · rw [TraceTable.nRows_ofRows] <;> simp
  · exact rows_ofRows _ _ (by omega) (by simp)
  · intro opts air hair
    exact (C54_quadratic hair (by simp) hn (by simp)).mpr fun i hi => by simp [List.getElem?_range hi]

/-- **C54**: `dummy_trace` produces ones beside the Fibonacci sequence. -/
theorem C54_dummy_trace {n : Nat} (hn : 2 ≤ n) :
    ∃ t : TraceTable F, dummyTrace n = .ok t ∧ t.nCols = 2 ∧ t.nRows = n ∧
      t.rows = .ok ((List.range n).map fun i => [1, fibSeq 1 1 i]) ∧
      ∀ opts (air : Air F Unit), dummy n () opts = .ok air →
        Satisfies air ((List.range n).map fun i => [1, fibSeq 1 1 i]) 2 () := by
  refine ⟨TraceTable.ofRows ((List.range n).map fun i => [1, fibSeq 1 1 i]) 2, ?_, rfl, ?_, ?_, ?_⟩
  · unfold dummyTrace
    rw [fibonacciLoop_eq 1 1 hn, Outcome.bind_ok,
      TraceTable.newFromCols_ok _ n (by simp) (by simp)]
    congr 2
    refine List.map_congr_left fun i hi => ?_
    simp [TraceTable.rowOf, List.mem_range.mp hi]
  · rw [TraceTable.nRows_ofRows] <;> simp
  · exact rows_ofRows _ _ (by omega) (by simp)
  · intro opts air hair
    exact (C54_dummy hair (by simp) hn (by simp)).mpr fun i hi => ⟨1, .inr rfl, by simp [List.getElem?_range hi]⟩

/-- The hypotheses of C54 hold for the traces of the generators, and the conclusions are not trivial:
the first terms of the sequences over the field with 17 elements. -/
example : fibonacciTrace (3 : ZMod 17) 5 4 = .ok ⟨[3, 5, 8, 13], 1⟩ ∧
    fibonacci2Trace (3 : ZMod 17) 5 2 = .ok ⟨[3, 5, 8, 13], 2⟩ ∧
    quadraticTrace (3 : ZMod 17) 4 = .ok ⟨[3, 9, 13, 16], 1⟩ ∧
    dummyTrace 4 = .ok ⟨([1, 1, 1, 1, 1, 2, 1, 3] : List (ZMod 17)), 2⟩ := by decide +kernel

/-! ## C56: the Fibonacci RAP -/

section rap
variable [DecidableEq F]

/-- **C56**: what satisfying the constraints of the Fibonacci RAP means, for traces of `n` rows and at
most `n` steps: Fibonacci terms from 1, 1 in the first `steps` rows, an accumulator that starts at one,
and for consecutive rows the step of the accumulator. The public first terms do not occur. -/
theorem C56_satisfies_iff {pi : FibonacciRAPPublicInputs F} {opts : ProofOptions} {air : Air F F} {n : Nat}
    (hair : fibonacciRap n pi opts = .ok air) {rows : List (List F)} (hn : rows.length = n) (h2 : 2 ≤ n)
    (hs : pi.steps ≤ n) (hw : ∀ r ∈ rows, r.length = 3) (γ : F) :
    Satisfies air rows 3 γ ↔
      (cell rows 0 0 = 1 ∧ cell rows 1 0 = 1 ∧
        ∀ i, i + 2 < pi.steps → cell rows (i + 2) 0 = cell rows (i + 1) 0 + cell rows i 0) ∧
      cell rows 0 2 = 1 ∧ ∀ i, i + 1 < n →
        cell rows (i + 1) 2 * (cell rows i 1 + γ) = cell rows i 2 * (cell rows i 0 + γ) := by
  obtain ⟨-, hc0, -, -, hc3, -, -, -, -, -, -, hc4, -, hc5⟩ := fibonacciRap_eq hair
  have hev : ∀ i, fibonacciRapTransition (frameAt rows 3 [0, 1, 2] i) γ
      = .ok [cell rows ((i + 2) % rows.length) 0 - cell rows ((i + 1) % rows.length) 0
          - cell rows (i % rows.length) 0,
        cell rows ((i + 1) % rows.length) 2 * (cell rows (i % rows.length) 1 + γ)
          - cell rows (i % rows.length) 2 * (cell rows (i % rows.length) 0 + γ)] := by
    intro i
    obtain ⟨fr, hf, hl, hfw, hc⟩ := frameAt_eq hw (by omega) [0, 1, 2] i
    rw [hf, fibonacciRapTransition_eq (by rw [hl]; decide) hfw, hc 0 0 0 rfl, hc 0 0 1 rfl, hc 0 0 2 rfl,
      hc 1 1 0 rfl, hc 1 1 2 rfl, hc 2 2 0 rfl]
    rfl
  constructor
  · rintro ⟨⟨cs, hcs, hb⟩, ht⟩
    rw [hc5, Outcome.ok.injEq] at hcs
    subst hcs
    have e0 := cell_of_row (hb ⟨0, 0, 1⟩ (by simp))
    have e1 := cell_of_row (hb ⟨0, 1, 1⟩ (by simp))
    have e2 := cell_of_row (hb ⟨2, 0, 1⟩ (by simp))
    rw [hc4, hc3, hc0] at ht
    refine ⟨⟨e0, e1, fun i hi => ?_⟩, e2, fun i hi => ?_⟩
    · obtain ⟨ev, he, hx⟩ := ht i (by omega)
      rw [hev, Nat.mod_eq_of_lt (show i + 2 < rows.length by omega),
        Nat.mod_eq_of_lt (show i + 1 < rows.length by omega), Nat.mod_eq_of_lt (show i < rows.length by omega),
        Outcome.ok.injEq] at he
      subst he
      have := hx 0 _ rfl (by omega)
      simp only [List.getElem?_cons_zero, Option.some.injEq] at this
      linear_combination this
    · obtain ⟨ev, he, hx⟩ := ht i (by omega)
      rw [hev, Nat.mod_eq_of_lt (show i + 1 < rows.length by omega),
        Nat.mod_eq_of_lt (show i < rows.length by omega), Outcome.ok.injEq] at he
      subst he
      have := hx 1 1 rfl (by omega)
      simp only [List.getElem?_cons_zero, List.getElem?_cons_succ, Option.some.injEq] at this
      exact sub_eq_zero.mp this
  · rintro ⟨⟨e0, e1, hf⟩, e2, hz⟩
    refine ⟨⟨_, by rw [hc5], ?_⟩, ?_⟩
    · intro c hc
      simp only [List.mem_cons, List.not_mem_nil, or_false] at hc
      rcases hc with rfl | rfl | rfl
      · exact row_of_cell hw (by simp only; omega) (by simp) e0
      · exact row_of_cell hw (by simp only; omega) (by simp) e1
      · exact row_of_cell hw (by simp only; omega) (by simp) e2
    · intro i hi
      rw [hc4, hc3, hc0]
      refine ⟨_, hev i, ?_⟩
      intro k x hx hlt
      match k with
      | 0 =>
        obtain rfl : n + 2 - pi.steps = x := by simpa using hx
        rw [Nat.mod_eq_of_lt (show i + 2 < rows.length by omega),
          Nat.mod_eq_of_lt (show i + 1 < rows.length by omega), Nat.mod_eq_of_lt hi, hf i (by omega)]
        simp
      | 1 =>
        obtain rfl : 1 = x := by simpa using hx
        rw [Nat.mod_eq_of_lt hlt, Nat.mod_eq_of_lt hi]
        simp only [List.getElem?_cons_zero, List.getElem?_cons_succ, Option.some.injEq]
        exact sub_eq_zero.mpr (hz i (by omega))
      | k + 2 => simp at hx

theorem runningQuotient_succ (a b : Nat → F) (γ : F) (i : Nat) :
    runningQuotient a b γ (i + 1) = runningQuotient a b γ i * ((a i + γ) / (b i + γ)) :=
  Finset.prod_range_succ _ _

omit [Field F] [DecidableEq F] in
theorem flatten_singletons (l : List F) : (l.map fun x => [x]).flatten = l := by
  induction l with
  | nil => rfl
  | cons x l ih => simp [ih]

theorem rapLoop_eq {n : Nat} (a b : Nat → F) (γ : F) (m : Nat) (hm : m ≤ n) (aux : List F) :
    (List.range m).foldlM (fun (aux : List F) i => do
        if i = 0 then return aux ++ [1]
        else
          let z ← index aux (i - 1)
          let x ← index ((List.range n).map a) (i - 1)
          let y ← index ((List.range n).map b) (i - 1)
          let inv ← invOrPanic (y + γ)
          return aux ++ [z * ((x + γ) * inv)]) [] = (.ok aux : Outcome Empty (List F)) ↔
      (∀ j, j + 1 < m → b j + γ ≠ 0) ∧ aux = (List.range m).map (runningQuotient a b γ) := by
  induction m generalizing aux with
  | zero => simp [Outcome.pure_eq, eq_comm]
  | succ m ih =>
    rw [List.range_succ, List.foldlM_append]
    simp only [Outcome.bind_eq_ok, ih (by omega), List.foldlM_cons, List.foldlM_nil]
    have key : ∀ j, j < m → (index ((List.range m).map (runningQuotient a b γ)) j : Outcome Empty F)
          = .ok (runningQuotient a b γ j) ∧
        (index ((List.range n).map a) j : Outcome Empty F) = .ok (a j) ∧
        (index ((List.range n).map b) j : Outcome Empty F) = .ok (b j) := by
      intro j hj
      refine ⟨index_ok ?_, index_ok ?_, index_ok ?_⟩ <;>
        rw [List.getElem?_map, List.getElem?_range (by omega)] <;> rfl
    rcases Nat.eq_zero_or_pos m with rfl | hpos
    · constructor
      · rintro ⟨l, ⟨-, rfl⟩, l', h1, h2⟩
        simp only [if_true, Outcome.pure_eq, Outcome.ok.injEq] at h1 h2
        subst h1 h2
        refine ⟨fun j hj => absurd hj (by omega), by simp [runningQuotient]⟩
      · rintro ⟨-, rfl⟩
        refine ⟨_, ⟨fun j hj => absurd hj (by omega), rfl⟩, _, by simp [Outcome.pure_eq]; rfl, ?_⟩
        simp [runningQuotient, Outcome.pure_eq]
    · obtain ⟨k1, k2, k3⟩ := key (m - 1) (by omega)
      have hstep : runningQuotient a b γ m
          = runningQuotient a b γ (m - 1) * ((a (m - 1) + γ) / (b (m - 1) + γ)) := by
        rw [← runningQuotient_succ, show m - 1 + 1 = m by omega]
      constructor
      · rintro ⟨l, ⟨h0, rfl⟩, l', h1, h2⟩
        rw [if_neg (by omega), k1, k2, k3] at h1
        simp only [Outcome.bind_ok, invOrPanic] at h1
        by_cases hz : b (m - 1) + γ = 0
        · rw [if_pos hz] at h1; cases h1
        rw [if_neg hz, Outcome.bind_ok, Outcome.pure_eq, Outcome.ok.injEq] at h1
        rw [Outcome.pure_eq, Outcome.ok.injEq] at h2
        subst h1 h2
        refine ⟨fun j hj => ?_, ?_⟩
        · rcases Nat.lt_or_ge (j + 1) m with h | h
          · exact h0 j h
          · obtain rfl : j = m - 1 := by omega
            exact hz
        · rw [List.map_append, List.map_singleton, hstep, div_eq_mul_inv]
      · rintro ⟨h0, rfl⟩
        refine ⟨_, ⟨fun j hj => h0 j (by omega), rfl⟩, (List.range (m + 1)).map (runningQuotient a b γ), ?_, ?_⟩
        · rw [if_neg (by omega), k1, k2, k3]
          simp only [Outcome.bind_ok, invOrPanic]
          rw [if_neg (h0 (m - 1) (by omega)), Outcome.bind_ok, Outcome.pure_eq, List.range_succ, List.map_append,
            List.map_singleton, hstep, div_eq_mul_inv]
        · rw [List.range_succ, Outcome.pure_eq]

/-- **C56**: the auxiliary column of the Fibonacci RAP is the running quotient of its two columns; it is
built exactly when no denominator vanishes. -/
theorem C56_auxiliary {n : Nat} (hn : 1 ≤ n) (a b : Nat → F) (γ : F) (aux : TraceTable F) :
    fibonacciRapAux ⟨((List.range n).map fun i => [a i, b i]).flatten, 2⟩ γ = .ok aux ↔
      (∀ j, j + 1 < n → b j + γ ≠ 0) ∧
        aux = ⟨((List.range n).map fun i => [runningQuotient a b γ i]).flatten, 1⟩ := by
  have hnew := TraceTable.newFromCols_ok [(List.range n).map a, (List.range n).map b] n (by simp) (by simp)
  have hrows : (List.range n).map (TraceTable.rowOf [(List.range n).map a, (List.range n).map b])
      = (List.range n).map fun i => [a i, b i] := by
    refine List.map_congr_left fun i hi => ?_
    simp [TraceTable.rowOf, List.mem_range.mp hi]
  rw [hrows] at hnew
  obtain ⟨t, ht, hnr, -, hcols, -⟩ := C33_table_of_columns [(List.range n).map a, (List.range n).map b] n
    (by simp) (by simp)
  rw [hnew, Outcome.ok.injEq] at ht
  subst ht
  have hout : ∀ l : List F, l.length = n → TraceTable.newFromCols [l] = .ok ⟨l, 1⟩ := by
    intro l hl
    rw [TraceTable.newFromCols_ok _ n (by simp) (by simpa using hl)]
    rw [show ((List.range n).map (TraceTable.rowOf [l])) = l.map fun x => [x] from ?_]
    · rw [TraceTable.ofRows, flatten_singletons]
      rfl
    · refine List.ext_getElem (by simp [hl]) fun j h1 h2 => ?_
      simp at h1 h2
      simp [TraceTable.rowOf, h2]
  unfold fibonacciRapAux
  rw [show (⟨((List.range n).map fun i => [a i, b i]).flatten, 2⟩ : TraceTable F)
    = TraceTable.ofRows ((List.range n).map fun i => [a i, b i])
      [(List.range n).map a, (List.range n).map b].length from rfl, hcols, Outcome.bind_ok, hnr]
  rw [show (index [(List.range n).map a, (List.range n).map b] 0 : Outcome Empty _)
      = .ok ((List.range n).map a) from rfl,
    show (index [(List.range n).map a, (List.range n).map b] 1 : Outcome Empty _)
      = .ok ((List.range n).map b) from rfl, Outcome.bind_ok, Outcome.bind_ok, Outcome.bind_eq_ok]
  have hflat : ((List.range n).map fun i => [runningQuotient a b γ i]).flatten
      = (List.range n).map (runningQuotient a b γ) := by
    rw [← flatten_singletons ((List.range n).map (runningQuotient a b γ)), List.map_map]
    rfl
  constructor
  · rintro ⟨l, h1, h2⟩
    obtain ⟨h3, rfl⟩ := (rapLoop_eq a b γ n le_rfl l).mp h1
    rw [hout _ (by simp), Outcome.ok.injEq] at h2
    exact ⟨h3, by rw [hflat, h2]⟩
  · rintro ⟨h1, rfl⟩
    refine ⟨_, (rapLoop_eq a b γ n le_rfl _).mpr ⟨h1, rfl⟩, ?_⟩
    rw [hout _ (by simp), hflat]

/-- The rows of a main trace with columns `a` and `b` beside an accumulator. -/
def rapRows (n : Nat) (a b z : Nat → F) : List (List F) := (List.range n).map fun i => [a i, b i, z i]

theorem cell_rapRows {n i : Nat} (hi : i < n) (a b z : Nat → F) :
    cell (rapRows n a b z) i 0 = a i ∧ cell (rapRows n a b z) i 1 = b i ∧ cell (rapRows n a b z) i 2 = z i := by
  simp [cell, rapRows, List.getD, List.getElem?_range hi]

/-- The constraints of the Fibonacci RAP hold for Fibonacci terms beside **any** second column, with the
auxiliary column the prover builds. -/
theorem rap_any_column {pi : FibonacciRAPPublicInputs F} {opts : ProofOptions} {air : Air F F} {n : Nat}
    (hair : fibonacciRap n pi opts = .ok air) (h2 : 2 ≤ n) (hs : pi.steps ≤ n) {a : Nat → F} (h0 : a 0 = 1)
    (h1 : a 1 = 1) (ha : ∀ i, i + 2 < pi.steps → a (i + 2) = a (i + 1) + a i) (b : Nat → F) {γ : F}
    (hd : ∀ j, j + 1 < n → b j + γ ≠ 0) :
    Satisfies air (rapRows n a b (runningQuotient a b γ)) 3 γ := by
  rw [C56_satisfies_iff hair (by simp [rapRows]) h2 hs (by simp [rapRows])]
  have hc := fun i (hi : i < n) => cell_rapRows hi a b (runningQuotient a b γ)
  refine ⟨⟨?_, ?_, fun i hi => ?_⟩, ?_, fun i hi => ?_⟩
  · rw [(hc 0 (by omega)).1, h0]
  · rw [(hc 1 (by omega)).1, h1]
  · rw [(hc _ (by omega)).1, (hc (i + 1) (by omega)).1, (hc i (by omega)).1, ha i hi]
  · rw [(hc 0 (by omega)).2.2]
    simp [runningQuotient]
  · rw [(hc _ hi).2.2, (hc i (by omega)).2.1, (hc i (by omega)).1, (hc i (by omega)).2.2, runningQuotient_succ]
    have := hd i hi
    field_simp

/-- The first column of the trace of the Fibonacci RAP: the sequence, then zeros. -/
def rapFirst (a0 a1 : F) (steps i : Nat) : F := if i < steps then fibSeq a0 a1 i else 0

/-- The second column: the first with the entries `0` and `steps - 1` exchanged. -/
def rapSecond (a0 a1 : F) (steps i : Nat) : F :=
  if i = steps - 1 then a0 else if i = 0 then fibSeq a0 a1 (steps - 1) else rapFirst a0 a1 steps i

omit [DecidableEq F] in
theorem rapTrace_eq (a0 a1 : F) {steps : Nat} (hs : 2 ≤ steps) :
    fibonacciRapTrace a0 a1 steps = .ok ⟨((List.range (nextPowerOfTwo (steps + 1))).map fun i =>
      [rapFirst a0 a1 steps i, rapSecond a0 a1 steps i]).flatten, 2⟩ := by
  have hp : steps + 1 ≤ nextPowerOfTwo (steps + 1) := Nat.le_pow_clog (by decide) _
  have hresize : ∀ (l : List F) (f : Nat → F), l.length = steps → (∀ i < steps, l[i]? = some (f i)) →
      (∀ i, steps ≤ i → f i = 0) →
      resizeToPowerOfTwo (l ++ [0]) = (List.range (nextPowerOfTwo (steps + 1))).map f := by
    intro l f hl h1 h2
    unfold resizeToPowerOfTwo
    rw [List.length_append, hl, List.length_singleton]
    refine List.ext_getElem? fun i => ?_
    rw [List.getElem?_map]
    rcases Nat.lt_or_ge i (nextPowerOfTwo (steps + 1)) with hi | hi
    · rw [List.getElem?_range hi, Option.map_some]
      rcases Nat.lt_or_ge i steps with h | h
      · rw [List.getElem?_append_left (by simp; omega), List.getElem?_append_left (by omega), h1 i h]
      · rw [h2 i h]
        rcases Nat.lt_or_ge i (steps + 1) with h' | h'
        · obtain rfl : i = steps := by omega
          rw [List.getElem?_append_left (by simp; omega), List.getElem?_append_right (by omega), hl]
          simp
        · rw [List.getElem?_append_right (by simp; omega), List.getElem?_replicate, if_pos]
          simp; omega
    · rw [List.getElem?_eq_none (by simp; omega), List.getElem?_eq_none (by simp; omega)]
      rfl
  unfold fibonacciRapTrace
  rw [fibonacciLoop_eq a0 a1 hs, Outcome.bind_ok, checkedSub, if_pos (by omega), Outcome.bind_ok,
    show (index ((List.range steps).map (fibSeq a0 a1)) (steps - 1) : Outcome Empty F)
      = .ok (fibSeq a0 a1 (steps - 1)) from
        index_ok (by simp [List.getElem?_range (show steps - 1 < steps by omega)]), Outcome.bind_ok]
  simp only
  rw [hresize _ (rapFirst a0 a1 steps) (by simp) (by
      intro i hi
      simp [List.getElem?_range hi, rapFirst, hi]) (by
      intro i hi
      simp [rapFirst]; omega),
    hresize _ (rapSecond a0 a1 steps) (by simp) (by
      intro i hi
      rw [List.getElem?_set, List.getElem?_set]
      unfold rapSecond rapFirst
      by_cases e1 : steps - 1 = i
      · simp [e1, hi]
      · rw [if_neg e1, if_neg (Ne.symm e1)]
        by_cases e2 : 0 = i
        · subst e2; simp; omega
        · rw [if_neg e2, if_neg (Ne.symm e2), if_pos hi]
          simp [List.getElem?_range hi]) (by
      intro i hi
      unfold rapSecond rapFirst
      rw [if_neg (by omega), if_neg (by omega), if_neg (by omega)]),
    TraceTable.newFromCols_ok _ (nextPowerOfTwo (steps + 1)) (by simp) (by simp)]
  unfold TraceTable.ofRows
  congr 3
  refine List.map_congr_left fun i hi => ?_
  simp [TraceTable.rowOf, List.mem_range.mp hi]

/-- **C56**, first half: the trace `fibonacci_rap_trace` builds from 1, 1 (the only start values the
boundary constraints admit), with the auxiliary column built from it, satisfies the constraints for
every challenge for which that column can be built, that is, unless a denominator vanishes. -/
theorem C56_honest {steps : Nat} (hs : 2 ≤ steps) {pi : FibonacciRAPPublicInputs F} (hpi : pi.steps = steps)
    {opts : ProofOptions} {air : Air F F} {main : TraceTable F} (hmain : fibonacciRapTrace 1 1 steps = .ok main)
    (hair : fibonacciRap main.nRows pi opts = .ok air) {γ : F} {aux : TraceTable F}
    (haux : air.buildAuxiliaryTrace main γ = .ok aux) :
    ∃ rows, main.rows = .ok rows ∧ SatisfiesExtended air rows 2 γ aux := by
  set n := nextPowerOfTwo (steps + 1) with hn
  have hp : steps + 1 ≤ n := Nat.le_pow_clog (by decide) _
  rw [rapTrace_eq 1 1 hs, Outcome.ok.injEq] at hmain
  subst hmain
  have hnr : TraceTable.nRows ⟨((List.range n).map fun i =>
      [rapFirst (1 : F) 1 steps i, rapSecond 1 1 steps i]).flatten, 2⟩ = n := by
    have := TraceTable.nRows_ofRows ((List.range n).map fun i =>
      [rapFirst (1 : F) 1 steps i, rapSecond 1 1 steps i]) 2 (by omega) (by simp)
    rw [List.length_map, List.length_range] at this
    exact this
  rw [hnr] at hair
  obtain ⟨-, -, hc1, -, -, -, -, -, -, -, hc6, -⟩ := fibonacciRap_eq hair
  rw [hc6, C56_auxiliary (by omega)] at haux
  obtain ⟨hd, rfl⟩ := haux
  refine ⟨_, rows_ofRows _ _ (by omega) (by simp), .inr ⟨_, by simp, rfl, by simp, by simp, by simp [hc1], ?_⟩⟩
  rw [hc1]
  have := rap_any_column hair (by omega) (by omega) (a := rapFirst 1 1 steps) (by
      rw [rapFirst, if_pos (by omega), fibSeq])
    (by rw [rapFirst, if_pos (by omega), fibSeq]) (by
      intro i hi
      rw [hpi] at hi
      simp only [rapFirst]
      rw [if_pos hi, if_pos (by omega), if_pos (by omega), fibSeq]) (rapSecond 1 1 steps) hd
  convert this using 1
  unfold rapRows
  rw [List.zipWith_map, List.zipWith_self]
  rfl

/-- **C56**, second half, refuted: for every number of rows and steps and every challenge but zero, some
rows satisfy the constraints although their second column is not a permutation of the first (it is
zero). -/
theorem C56_permutation_not_enforced {pi : FibonacciRAPPublicInputs F} {opts : ProofOptions} {air : Air F F}
    {n : Nat} (hair : fibonacciRap n pi opts = .ok air) (h2 : 2 ≤ n) (hs : pi.steps ≤ n) {γ : F}
    (hγ : γ ≠ 0) :
    ∃ rows, rows.length = n ∧ Satisfies air rows 3 γ ∧
      ¬ ((List.range n).map fun i => cell rows i 1).Perm ((List.range n).map fun i => cell rows i 0) := by
  refine ⟨_, ?_, rap_any_column hair h2 hs (a := fibSeq 1 1) rfl rfl (fun i _ => rfl) (fun _ => 0)
    (fun _ _ => by simpa using hγ), ?_⟩
  · simp [rapRows]
  · intro h
    have h1 : (1 : F) ∈ ((List.range n).map fun i => cell (rapRows n (fibSeq 1 1) (fun _ => 0)
        (runningQuotient (fibSeq 1 1) (fun _ => 0) γ)) i 0) := by
      refine List.mem_map.mpr ⟨0, List.mem_range.mpr (by omega), ?_⟩
      rw [(cell_rapRows (show 0 < n by omega) _ _ _).1]
      rfl
    obtain ⟨i, hi, he⟩ := List.mem_map.mp (h.mem_iff.mpr h1)
    rw [(cell_rapRows (List.mem_range.mp hi) _ _ _).2.1] at he
    exact zero_ne_one he

/-- **C56**, second half, as far as it goes: if, for more challenges than rows, some accumulator
satisfies the constraints beside the columns `a` and `b` **and** closes up in the last row, then the
columns are permutations of each other. Missing in the code: the constraint on the last row. -/
theorem C56_permutation_partial {pi : FibonacciRAPPublicInputs F} {opts : ProofOptions} {air : Air F F}
    {n : Nat} (hair : fibonacciRap n pi opts = .ok air) (h2 : 2 ≤ n) (hs : pi.steps ≤ n) (a b : Nat → F)
    (Γ : Finset F) (hΓ : n < Γ.card)
    (h : ∀ γ ∈ Γ, ∃ z : Nat → F, Satisfies air ((List.range n).map fun i => [a i, b i, z i]) 3 γ ∧
      z (n - 1) * (a (n - 1) + γ) = b (n - 1) + γ) :
    ((List.range n).map b).Perm ((List.range n).map a) := by
  refine (perm_of_products (by simp) (Γ.image Neg.neg) (by
    rw [Finset.card_image_of_injective _ neg_injective]; simpa using hΓ) ?_).symm
  intro y hy
  obtain ⟨γ, hγ, rfl⟩ := Finset.mem_image.mp hy
  obtain ⟨z, hsat, hlast⟩ := h γ hγ
  change Satisfies air (rapRows n a b z) 3 γ at hsat
  rw [C56_satisfies_iff hair (by simp [rapRows]) h2 hs (by simp [rapRows])] at hsat
  obtain ⟨-, h0, hz⟩ := hsat
  have hc := fun i (hi : i < n) => cell_rapRows hi a b z
  rw [(hc 0 (by omega)).2.2] at h0
  have hprod : ∀ k < n, z k * ∏ j ∈ Finset.range k, (b j + γ) = ∏ j ∈ Finset.range k, (a j + γ) := by
    intro k
    induction k with
    | zero => intro _; simpa using h0
    | succ k ih =>
      intro hk
      have e := hz k hk
      rw [(hc _ hk).2.2, (hc k (by omega)).2.1, (hc k (by omega)).1, (hc k (by omega)).2.2] at e
      rw [Finset.prod_range_succ, Finset.prod_range_succ, ← ih (by omega)]
      linear_combination (∏ j ∈ Finset.range k, (b j + γ)) * e
  have hall : ∏ j ∈ Finset.range n, (b j + γ) = ∏ j ∈ Finset.range n, (a j + γ) := by
    obtain ⟨m, rfl⟩ : ∃ m, n = m + 1 := ⟨n - 1, by omega⟩
    rw [Nat.add_sub_cancel] at hlast
    rw [Finset.prod_range_succ, Finset.prod_range_succ, ← hprod m (by omega), ← hlast]
    ring
  have hneg : ∀ f : Nat → F, ((List.range n).map fun i => -γ - f i).prod
      = (-1) ^ n * ∏ j ∈ Finset.range n, (f j + γ) := by
    intro f
    have hr : ∀ (m : Nat) (f : Nat → F), ((List.range m).map f).prod = ∏ j ∈ Finset.range m, f j := by
      intro m f
      induction m with
      | zero => rfl
      | succ m ih =>
        rw [List.range_succ, List.map_append, List.prod_append, Finset.prod_range_succ, ih]
        simp
    have : (List.range n).map (fun i => -γ - f i) = (List.range n).map fun i => -1 * (f i + γ) :=
      List.map_congr_left fun i _ => by ring
    rw [this, List.prod_map_mul, List.map_const', List.prod_replicate, List.length_range, hr]
  rw [List.map_map, List.map_map]
  simp only [Function.comp_def]
  rw [hneg, hneg, hall]

/-- The hypotheses of C56 are met: a run of six steps in eight rows over the field with 17 elements. -/
example : (fibonacciRapTrace (1 : ZMod 17) 1 6).isOk = true ∧
    (do let t ← fibonacciRapTrace (1 : ZMod 17) 1 6
        fibonacciRapAux t 2 : Outcome Empty _).isOk = true := by decide +kernel

end rap

end Verif.Props
