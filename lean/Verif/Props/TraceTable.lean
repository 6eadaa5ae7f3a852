import Verif.Lemmas.Trace
import Verif.Model.ExecutionTrace

/-!
# Properties of trace tables and frames: C33, C34
-/

namespace Verif.Props
open TraceTable

/-- **C33.** A table built from equally long columns has these columns, and its accessors agree
with them: row count, width, cells, rows, last row, selections of columns. -/
theorem C33_table_of_columns {F : Type} (cols : List (List F)) (n : Nat) (hne : cols ≠ [])
    (hlen : ∀ c ∈ cols, c.length = n) :
    ∃ t, newFromCols cols = .ok t ∧ t.nRows = n ∧ t.nCols = cols.length ∧
      t.cols = .ok cols ∧
      (∀ r c (hr : r < n) (hc : c < cols.length),
        (t.get r c : Outcome Empty F) =
          .ok ((cols[c])[r]'(by rw [hlen _ (List.getElem_mem _)]; exact hr))) ∧
      (∀ r < n, ∃ row, (t.getRow r : Outcome Empty _) = .ok row ∧ row.length = cols.length ∧
        ∀ c (hc : c < cols.length), row[c]? = (cols[c])[r]?) ∧
      (∃ rows, t.rows = .ok rows ∧ rows.length = n ∧
        ∀ r (hr : r < rows.length), (t.getRow r : Outcome Empty _) = .ok rows[r]) ∧
      (0 < n → t.lastRow = t.getRow (n - 1)) ∧
      (∀ sel : List Nat, sel ≠ [] → (hs : ∀ c ∈ sel, c < cols.length) →
        t.getCols sel = newFromCols (sel.pmap (fun c hc => cols[c]) hs)) := by
  have hpos : 0 < cols.length := List.length_pos_iff.2 hne
  set R := (List.range n).map (rowOf cols) with hR
  have hRl : ∀ r ∈ R, r.length = cols.length := rows_len cols n hlen
  have hRn : R.length = n := by simp [hR]
  have hcell : ∀ {ε : Type} r c (hr : r < n) (hc : c < cols.length),
      (index (ofRows R cols.length).table (r * (ofRows R cols.length).nCols + c) : Outcome ε F) =
        .ok ((cols[c])[r]'(by rw [hlen _ (List.getElem_mem _)]; exact hr)) := by
    intro ε r c hr hc
    rw [hR, get_cols_cell cols n hlen r c hr hc, cell_ok _ n r (hlen _ (List.getElem_mem _)) hr]
  have hnR : (ofRows R cols.length).nRows = n := by rw [nRows_ofRows R _ hpos hRl, hRn]
  refine ⟨_, newFromCols_ok cols n hne hlen, hnR, rfl, ?_, ?_, ?_, ?_, ?_, ?_⟩
  · unfold TraceTable.cols
    rw [hnR]
    refine mapOutcome_range rfl fun c hc => mapOutcome_range (hlen _ (List.getElem_mem _)) ?_
    intro r hr
    exact hcell r c (by rw [hlen _ (List.getElem_mem _)] at hr; exact hr) hc
  · intro r c hr hc; exact hcell r c hr hc
  · intro r hr
    refine ⟨_, getRow_ofRows R _ hRl r (by omega), hRl _ (List.getElem_mem _), ?_⟩
    intro c hc
    rw [← (rowOf_eq cols n r hlen hr).2 c hc]
    simp [hR]
  · refine ⟨R, ?_, hRn, fun r hr => getRow_ofRows R _ hRl r hr⟩
    unfold TraceTable.rows
    rw [hnR]
    exact mapOutcome_range hRn fun r hr => getRow_ofRows R _ hRl r hr
  · intro hn
    unfold TraceTable.lastRow
    rw [hnR, if_neg (by omega)]
  · intro sel hsel hs
    have hplen : ∀ c ∈ sel.pmap (fun c hc => cols[c]) hs, c.length = n := by
      intro c hc
      obtain ⟨i, hi, rfl⟩ := List.mem_pmap.1 hc
      exact hlen _ (List.getElem_mem _)
    have hpne : sel.pmap (fun c hc => cols[c]) hs ≠ [] := by simpa using hsel
    rw [newFromCols_ok _ n hpne hplen]
    unfold TraceTable.getCols
    rw [hnR]
    have : (mapOutcome (fun r => mapOutcome (fun c => index (ofRows R cols.length).table
        (r * (ofRows R cols.length).nCols + c)) sel) (List.range n) : Outcome Empty _) =
        .ok ((List.range n).map (rowOf (sel.pmap (fun c hc => cols[c]) hs))) := by
      refine mapOutcome_ok _ fun r hr => ?_
      have hr' := List.mem_range.1 hr
      obtain ⟨h1, h2⟩ := rowOf_eq _ n r hplen hr'
      refine mapOutcome_of_getElem (by simpa using h1) fun i hi hi' => ?_
      rw [hcell r sel[i] hr' (hs _ (List.getElem_mem _))]
      have := h2 i (by simpa using hi)
      rw [List.getElem?_eq_getElem hi', List.getElem_pmap,
        List.getElem?_eq_getElem (by rw [hlen _ (List.getElem_mem _)]; exact hr')] at this
      rw [Option.some.inj this]
    rw [this]
    simp [ofRows]

/-- **C33**, the converse: every rectangular table is built from its columns. -/
theorem C33_table_has_columns {F : Type} (t : TraceTable F) (hw : 0 < t.nCols)
    (hrect : t.nCols ∣ t.table.length) :
    ∃ cols, t.cols = .ok cols ∧ cols.length = t.nCols ∧ (∀ c ∈ cols, c.length = t.nRows) ∧
      newFromCols cols = .ok t := by
  obtain ⟨rows, ht, hr⟩ := exists_rows t hw hrect
  have hn : t.nRows = rows.length := by rw [ht]; exact nRows_ofRows rows _ hw hr
  set cols := (List.range t.nCols).map (rowOf rows) with hc
  have hlen : ∀ c ∈ cols, c.length = rows.length := rows_len rows t.nCols hr
  have hne : cols ≠ [] := by simp [hc, hw.ne']
  have hback : newFromCols cols = .ok t := by
    rw [newFromCols_ok cols rows.length hne hlen, ht]
    have hcl : cols.length = t.nCols := by simp [hc]
    have : (List.range rows.length).map (rowOf cols) = rows := by
      apply List.ext_getElem
      · simp
      · intro i _ hi'
        obtain ⟨h1, h2⟩ := rowOf_eq cols rows.length i hlen hi'
        rw [List.getElem_map, List.getElem_range]
        apply List.ext_getElem?
        intro j
        by_cases hj : j < cols.length
        · rw [h2 j hj]
          have := (rowOf_eq rows t.nCols j hr (by omega)).2 i hi'
          simp only [hc, List.getElem_map, List.getElem_range]
          rw [this]
        · rw [List.getElem?_eq_none (by omega),
            List.getElem?_eq_none (by rw [hr _ (List.getElem_mem _)]; omega)]
    rw [this, hcl]
  obtain ⟨t', h1, -, -, h4, -⟩ := C33_table_of_columns cols rows.length hne hlen
  rw [hback] at h1
  injection h1 with h1
  subst h1
  exact ⟨cols, h4, by simp [hc], by rw [hn]; exact hlen, hback⟩

/-- **C33**, concatenation: appending the row-major cells of a second table with the same number of
rows gives the table with the columns of both. -/
theorem C33_concatenate {F : Type} (cols cols' : List (List F)) (n : Nat) (hne : cols ≠ [])
    (hne' : cols' ≠ []) (hlen : ∀ c ∈ cols, c.length = n) (hlen' : ∀ c ∈ cols', c.length = n) :
    ∃ t t', newFromCols cols = .ok t ∧ newFromCols cols' = .ok t' ∧
      t.concatenate t'.table t'.nCols = newFromCols (cols ++ cols') := by
  have hpos : 0 < cols.length := List.length_pos_iff.2 hne
  refine ⟨_, _, newFromCols_ok cols n hne hlen, newFromCols_ok cols' n hne' hlen', ?_⟩
  rw [newFromCols_ok (cols ++ cols') n (by simp [hne]) (by
    intro c hc; rcases List.mem_append.1 hc with h | h
    · exact hlen c h
    · exact hlen' c h)]
  unfold TraceTable.concatenate
  have h1 := length_flatten_const _ _ (rows_len cols n hlen)
  have h2 := concatenateRows_ok _ _ _ _ (rows_len cols n hlen) (rows_len cols' n hlen') (by simp)
    n (by simp)
  simp only [List.length_map, List.length_range, Nat.sub_self, Nat.zero_mul, List.drop_zero,
    ← List.range_eq_range'] at h1 h2
  have hz : ¬ cols.length = 0 := by omega
  simp only [ofRows, hz, if_false, h1, stepBy_mul _ _ hpos, h2, Outcome.bind_ok, Outcome.pure_eq, List.length_append, Outcome.ok.injEq,
    TraceTable.mk.injEq, and_true]
  congr 1
  apply List.ext_getElem
  · simp
  · intro i hi hi'
    simp [rowOf]

/-- **C33**, the remaining case: a table without columns has no rows, whatever it was built from, and there is no table
of an empty list of columns. -/
theorem C33_no_columns {F : Type} (t : TraceTable F) (h : t.nCols = 0) :
    t.nRows = 0 ∧ t.rows = .ok [] ∧ t.cols = .ok [] ∧ t.lastRow = .panic ∧
      newFromCols ([] : List (List F)) = .panic := by
  have hn : t.nRows = 0 := by unfold TraceTable.nRows; rw [if_pos h]
  refine ⟨hn, ?_, ?_, ?_, rfl⟩
  · unfold TraceTable.rows; rw [hn]; rfl
  · unfold TraceTable.cols; rw [h]; rfl
  · unfold TraceTable.lastRow; rw [if_pos hn]

example : (⟨[7, 8], 0⟩ : TraceTable Nat).rows = .ok [] := (C33_no_columns ⟨[7, 8], 0⟩ rfl).2.1

/-- Columns meeting the hypotheses of the C33 theorems: two columns of three cells. -/
example : ([[1, 2, 3], [4, 5, 6]] : List (List Nat)) ≠ [] ∧
    (∀ c ∈ ([[1, 2, 3], [4, 5, 6]] : List (List Nat)), c.length = 3) ∧
    newFromCols [[1, 2, 3], [4, 5, 6]] = .ok ⟨[1, 4, 2, 5, 3, 6], 2⟩ := by decide

/-- The selection of columns used by the Cairo code on row lists (`ExecTrace.getCols`) is
`TraceTable::get_cols` on the corresponding table. -/
theorem C33_row_view (rows : List (List FE)) (w : Nat) (hw : 0 < w)
    (hr : ∀ r ∈ rows, r.length = w) (sel : List Nat) (hs : ∀ c ∈ sel, c < w) :
    (TraceTable.mk rows.flatten w).getCols sel =
      .ok ⟨ExecTrace.getCols rows sel, sel.length⟩ := by
  have hn := nRows_ofRows rows w hw hr
  unfold TraceTable.getCols
  unfold ofRows at hn
  rw [hn]
  have : (mapOutcome (fun r => mapOutcome (fun c => index rows.flatten (r * w + c)) sel)
      (List.range rows.length) : Outcome Empty _) =
      .ok (rows.map fun r => sel.map fun c => r.getD c 0) := by
    refine mapOutcome_range (by simp) fun r hlt => ?_
    have hlt' : r < rows.length := by simpa using hlt
    rw [List.getElem_map]
    refine mapOutcome_ok _ fun c hc => index_ok ?_
    rw [flatten_getElem? rows w hr r c hlt' (hs c hc),
      List.getElem?_eq_getElem (by rw [hr _ (List.getElem_mem _)]; exact hs c hc),
      List.getD_eq_getElem _ _ (by rw [hr _ (List.getElem_mem _)]; exact hs c hc)]
  simp only [this, Outcome.bind_ok, Outcome.pure_eq, ExecTrace.getCols, List.flatMap_def]

/-- **C34.** Reading a frame at a step: for every offset of the list, in order, the frame contains
the row `offset * blowup` steps ahead, wrapping around at the last row. -/
theorem C34_frame_rows {F : Type} (t : TraceTable F) (hw : 0 < t.nCols)
    (hrect : t.nCols ∣ t.table.length) (hn : 0 < t.nRows) (step blowup : Nat) (offsets : List Nat) :
    ∃ frame, (Frame.readFromTrace t step blowup offsets : Outcome Empty _) = .ok frame ∧
      frame.rowWidth = t.nCols ∧ frame.data.length = offsets.length * t.nCols ∧
      (frame.numRows : Outcome Empty _) = .ok offsets.length ∧
      ∀ k (hk : k < offsets.length),
        (frame.getRow k : Outcome Empty _) = t.getRow ((step + offsets[k] * blowup) % t.nRows) := by
  obtain ⟨rows, ht, hr⟩ := exists_rows t hw hrect
  have hnr : t.nRows = rows.length := by rw [ht]; exact nRows_ofRows rows _ hw hr
  rw [hnr] at hn
  have hlt : ∀ o, (step + o * blowup) % rows.length < rows.length := fun o => Nat.mod_lt _ hn
  let sel : List (List F) := offsets.map fun o => rows[(step + o * blowup) % rows.length]'(hlt o)
  have hsel : ∀ r ∈ sel, r.length = t.nCols := by
    intro r hr'
    obtain ⟨o, -, rfl⟩ := List.mem_map.1 hr'
    exact hr _ (List.getElem_mem _)
  have hget : ∀ i (hi : i < rows.length), (t.getRow i : Outcome Empty _) = .ok rows[i] := by
    intro i hi
    have := getRow_ofRows (ε := Empty) rows t.nCols hr i hi
    rwa [← ht] at this
  have hread : (Frame.readFromTrace t step blowup offsets : Outcome Empty _) =
      .ok ⟨sel.flatten, t.nCols⟩ := by
    unfold Frame.readFromTrace
    rw [hnr, mapOutcome_ok offsets (g := fun o => rows[(step + o * blowup) % rows.length]'(hlt o))]
    · rfl
    · intro o _
      rw [if_neg (by omega), hget _ (hlt o)]
  have hdl : sel.flatten.length = offsets.length * t.nCols := by
    rw [length_flatten_const sel _ hsel]; simp [sel]
  refine ⟨_, hread, rfl, hdl, ?_, ?_⟩
  · unfold Frame.numRows
    simp only [hdl]
    rw [if_neg (by omega), Nat.mul_div_cancel _ hw]
  · intro k hk
    rw [hnr, hget _ (hlt _)]
    have := subslice_flatten (ε := Empty) sel t.nCols hsel k (by simpa [sel] using hk)
    unfold Frame.getRow
    rw [this]
    simp [sel]

/-- **C34**, extended domain: if row `i` of a table of `N` rows holds the values of the trace
polynomials at `h * w ^ i`, where `w ^ N = 1`, then the frame read at step `i` with blowup `b` holds
the values of the polynomials at `x, x * g ^ offset, ...` for `x = h * w ^ i` and `g = w ^ b`: it is
the frame `get_trace_evaluations` computes at that point. -/
theorem C34_frame_extended_domain {F : Type} [Field F] (polys : List (Polynomial F)) (h w : F)
    (N : Nat) (hN : 0 < N) (hroot : w ^ N = 1) (hpolys : polys ≠ []) (t : TraceTable F)
    (ht : t = ⟨((List.range N).map fun i => polys.map fun p => p.eval (h * w ^ i)).flatten,
      polys.length⟩) (step blowup : Nat) (offsets : List Nat) :
    (Frame.readFromTrace t step blowup offsets : Outcome Empty _) =
      .ok ⟨(Frame.getTraceEvaluations polys (h * w ^ step) offsets (w ^ blowup)).flatten,
        polys.length⟩ := by
  have hpos : 0 < polys.length := List.length_pos_iff.2 hpolys
  set rows := (List.range N).map fun i => polys.map fun p => p.eval (h * w ^ i) with hrows
  have hr : ∀ r ∈ rows, r.length = polys.length := by
    intro r hr
    obtain ⟨i, -, rfl⟩ := List.mem_map.1 hr
    simp
  have hnr : t.nRows = N := by
    rw [ht]
    have := nRows_ofRows rows polys.length hpos hr
    unfold ofRows at this
    rw [this]; simp [hrows]
  unfold Frame.readFromTrace
  rw [hnr, mapOutcome_ok offsets
    (g := fun o => polys.map fun p => p.eval (h * w ^ ((step + o * blowup) % N)))]
  · have hw : ∀ o, h * w ^ ((step + o * blowup) % N) = h * w ^ step * (w ^ blowup) ^ o := by
      intro o
      have : w ^ ((step + o * blowup) % N) = w ^ (step + o * blowup) := by
        conv_rhs => rw [← Nat.mod_add_div (step + o * blowup) N, pow_add, pow_mul, hroot, one_pow,
          mul_one]
      rw [this, pow_add, ← pow_mul, Nat.mul_comm blowup o, mul_assoc]
    simp only [hw, Outcome.bind_ok, Outcome.pure_eq, ht, Frame.getTraceEvaluations, List.map_map]
    rfl
  · intro o _
    have hlt : (step + o * blowup) % N < rows.length := by simpa [hrows] using Nat.mod_lt _ hN
    rw [if_neg (by omega), ht]
    have := getRow_ofRows (ε := Empty) rows polys.length hr _ hlt
    unfold ofRows at this
    rw [this]
    simp [hrows]

/-- A frame at the last row of a three-row table with offsets 0 and 1 wraps to the first row. -/
example : (Frame.readFromTrace (⟨[1, 4, 2, 5, 3, 6], 2⟩ : TraceTable Nat) 2 1 [0, 1] :
    Outcome Empty _) = .ok ⟨[3, 6, 1, 4], 2⟩ := by decide

end Verif.Props
