import Verif.Lemmas.HonestMemory

/-!
# C18: the rows that hold the missing addresses
-/

namespace Verif.Props
open Verif.ExecTrace Verif.CairoAir

/-- **C18**: every missing address is added once. -/
theorem C18_holes_once {addrs holes : List FE} {codelen : Nat} (hsorted : addrs.Pairwise (fun a b => a.val ≤ b.val))
    (h : getMemoryHoles addrs codelen = .ok holes) : holes.Nodup := by
  unfold getMemoryHoles at h
  obtain _ | ⟨a, t⟩ := addrs
  · cases h
  · simp only [Outcome.ok.injEq] at h
    subst h
    refine memoryHolesFrom_nodup _ _ (List.pairwise_cons.2 ⟨fun b hb => ?_, hsorted⟩)
    rcases List.mem_cons.1 hb with rfl | hb
    · exact le_rfl
    · exact (List.pairwise_cons.1 hsorted).1 b hb

/-- **C18**, placement: the appended rows are as many as needed for four addresses in each; their address cells, read
row by row, are exactly the missing addresses, followed by less than four addresses that the last row already has in
these columns; all their other cells are those of the last row. -/
theorem C18_hole_rows (last : List FE) (hl : 23 ≤ last.length) (holes : List FE) :
    (memoryHoleRows last holes).length = (holes.length + 3) / 4 ∧
    (∃ n < 4, getCols (memoryHoleRows last holes) ADDR_COLUMNS
      = holes ++ (ADDR_COLUMNS.drop (4 - n)).map (last.getD · 0)) ∧
    ∀ row ∈ memoryHoleRows last holes, row.length = last.length ∧
      ∀ c, c ∉ ADDR_COLUMNS → row.getD c 0 = last.getD c 0 := by
  have hlen : ∀ hs, (holeRow last hs).length = last.length := by
    intro hs
    unfold holeRow
    generalize ADDR_COLUMNS.zip hs = l
    induction l generalizing last with
    | nil => rfl
    | cons x xs ih => rw [List.foldl_cons, ih _ (by simpa using hl), List.length_set]
  have hother : ∀ hs c, c ∉ ADDR_COLUMNS → (holeRow last hs).getD c 0 = last.getD c 0 := by
    intro hs c hc
    apply holeRow_other
    simp only [ADDR_COLUMNS, List.mem_cons, List.not_mem_nil, or_false, not_or] at hc
    obtain ⟨h1, h2, h3, h4⟩ := hc
    simp only [FRAME_PC, FRAME_DST_ADDR, FRAME_OP0_ADDR, FRAME_OP1_ADDR] at h1 h2 h3 h4
    omega
  have e : ∀ (r : List FE) (i j : Nat) (x : FE), 23 ≤ r.length → i < 23 →
      (r.set i x).getD j 0 = if i = j then x else r.getD j 0 := by
    intro r i j x hr hi
    simp only [List.getD_eq_getElem?_getD, List.getElem?_set]
    by_cases h : i = j
    · subst h
      simp [show i < r.length by omega]
    · simp [h]
  refine ⟨?_, ?_, ?_⟩
  · induction holes using memoryHoleRows.induct with
    | case1 a b c d t ih => simp only [memoryHoleRows, List.length_cons, ih]; omega
    | case2 => rfl
    | case3 hs h1 h2 =>
      obtain _ | ⟨a, _ | ⟨b, _ | ⟨c, _ | ⟨d, t⟩⟩⟩⟩ := hs
      · exact absurd rfl h2
      · simp [memoryHoleRows]
      · simp [memoryHoleRows]
      · simp [memoryHoleRows]
      · exact absurd rfl (h1 a b c d t)
  · induction holes using memoryHoleRows.induct with
    | case1 a b c d t ih =>
      obtain ⟨n, hn, ih⟩ := ih
      refine ⟨n, hn, ?_⟩
      have h4 : (ADDR_COLUMNS.map fun k => (holeRow last [a, b, c, d]).getD k 0) = [a, b, c, d] := by
        simp [holeRow, ADDR_COLUMNS, e, hl, FRAME_PC, FRAME_DST_ADDR, FRAME_OP0_ADDR,
          FRAME_OP1_ADDR, -List.getD_eq_getElem?_getD]
      rw [memoryHoleRows, getCols, List.flatMap_cons, h4]
      rw [getCols] at ih
      rw [ih]
      rfl
    | case2 => exact ⟨0, by omega, by simp [memoryHoleRows, getCols, ADDR_COLUMNS]⟩
    | case3 hs h1 h2 =>
      obtain _ | ⟨a, _ | ⟨b, _ | ⟨c, _ | ⟨d, t⟩⟩⟩⟩ := hs
      · exact absurd rfl h2
      · exact ⟨3, by omega, by simp [memoryHoleRows, getCols, holeRow, ADDR_COLUMNS, e, hl, FRAME_PC, FRAME_DST_ADDR, FRAME_OP0_ADDR,
          FRAME_OP1_ADDR, -List.getD_eq_getElem?_getD]⟩
      · exact ⟨2, by omega, by simp [memoryHoleRows, getCols, holeRow, ADDR_COLUMNS, e, hl, FRAME_PC, FRAME_DST_ADDR, FRAME_OP0_ADDR,
          FRAME_OP1_ADDR, -List.getD_eq_getElem?_getD]⟩
      · exact ⟨1, by omega, by simp [memoryHoleRows, getCols, holeRow, ADDR_COLUMNS, e, hl, FRAME_PC, FRAME_DST_ADDR, FRAME_OP0_ADDR,
          FRAME_OP1_ADDR, -List.getD_eq_getElem?_getD]⟩
      · exact absurd rfl (h1 a b c d t)
  · induction holes using memoryHoleRows.induct with
    | case1 a b c d t ih =>
      intro row hr
      rw [memoryHoleRows] at hr
      rcases List.mem_cons.1 hr with rfl | hr
      · exact ⟨hlen _, hother _⟩
      · exact ih row hr
    | case2 => intro row hr; simp [memoryHoleRows] at hr
    | case3 hs h1 h2 =>
      intro row hr
      obtain _ | ⟨a, _ | ⟨b, _ | ⟨c, _ | ⟨d, t⟩⟩⟩⟩ := hs
      · exact absurd rfl h2
      · simp only [memoryHoleRows, List.mem_singleton] at hr; subst hr; exact ⟨hlen _, hother _⟩
      · simp only [memoryHoleRows, List.mem_singleton] at hr; subst hr; exact ⟨hlen _, hother _⟩
      · simp only [memoryHoleRows, List.mem_singleton] at hr; subst hr; exact ⟨hlen _, hother _⟩
      · exact absurd rfl (h1 a b c d t)

/-- Five missing addresses make two rows; the second one keeps three addresses of the last row. -/
example : getCols (memoryHoleRows (List.replicate 36 9) [4, 5, 6, 7, 8]) ADDR_COLUMNS
      = ([4, 5, 6, 7, 8, 9, 9, 9] : List FE) ∧
    23 ≤ (List.replicate 36 (9 : FE)).length := by
  constructor <;> decide +kernel

/-- Addresses with two missing ones between them. -/
example : getMemoryHoles ([1, 2, 6, 9] : List FE) 5 = .ok [7, 8] ∧
    ([1, 2, 6, 9] : List FE).Pairwise (fun a b => a.val ≤ b.val) := by
  constructor <;> decide +kernel

end Verif.Props
