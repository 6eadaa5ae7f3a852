import Verif.Spec.Rows
import Verif.Lemmas.CairoImport

/-! Helper lemmas about row-major tables. -/

namespace Verif

section Flat
variable {α : Type}

theorem length_flatten_const (rows : List (List α)) (w : Nat) (h : ∀ r ∈ rows, r.length = w) :
    rows.flatten.length = rows.length * w := by
  induction rows with
  | nil => simp
  | cons r t ih =>
    rw [List.flatten_cons, List.length_append, h r (by simp), ih fun x hx => h x (by simp [hx]),
      List.length_cons]; ring

theorem flatten_drop (rows : List (List α)) (w : Nat) (h : ∀ r ∈ rows, r.length = w) (i : Nat) :
    rows.flatten.drop (i * w) = (rows.drop i).flatten := by
  induction rows generalizing i with
  | nil => simp
  | cons r t ih =>
    cases i with
    | zero => simp
    | succ i =>
      rw [List.flatten_cons, List.drop_succ_cons, ← ih (fun x hx => h x (by simp [hx])) i]
      have hr := h r (by simp)
      rw [Nat.succ_mul, Nat.add_comm, ← List.drop_drop, ← hr, List.drop_left]

theorem flatten_slice (rows : List (List α)) (w : Nat) (h : ∀ r ∈ rows, r.length = w) (i : Nat)
    (hi : i < rows.length) : (rows.flatten.drop (i * w)).take w = rows[i] := by
  rw [flatten_drop rows w h, List.drop_eq_getElem_cons hi, List.flatten_cons]
  have := h rows[i] (List.getElem_mem _)
  rw [← this, List.take_left]

theorem flatten_getElem? (rows : List (List α)) (w : Nat) (h : ∀ r ∈ rows, r.length = w) (i j : Nat)
    (hi : i < rows.length) (hj : j < w) : rows.flatten[i * w + j]? = (rows[i])[j]? := by
  rw [← flatten_slice rows w h i hi, List.getElem?_take, if_pos hj, List.getElem?_drop]

theorem subslice_flatten {ε : Type} (rows : List (List α)) (w : Nat) (h : ∀ r ∈ rows, r.length = w)
    (i : Nat) (hi : i < rows.length) :
    (subslice rows.flatten (i * w) (i * w + w) : Outcome ε (List α)) = .ok rows[i] := by
  unfold subslice
  have hl := length_flatten_const rows w h
  have : i * w + w ≤ rows.length * w := by
    rw [← Nat.succ_mul]; exact Nat.mul_le_mul_right _ hi
  rw [if_pos ⟨by omega, by omega⟩, Nat.add_sub_cancel_left, flatten_slice rows w h i hi]

theorem index_ok {ε : Type} {l : List α} {i : Nat} {a : α} (h : l[i]? = some a) :
    (index l i : Outcome ε α) = .ok a := by
  unfold index; rw [h]; rfl

theorem index_eq_ok {ε : Type} {l : List α} {i : Nat} {a : α} :
    (index l i : Outcome ε α) = .ok a ↔ l[i]? = some a := by
  unfold index Outcome.ofOptionUnwrap
  cases l[i]? <;> simp

theorem mapOutcome_mem {ε β : Type} {f : α → Outcome ε β} {l : List α} {bs : List β}
    (h : mapOutcome f l = .ok bs) : bs.length = l.length ∧
      ∀ i (h1 : i < l.length) (h2 : i < bs.length), f l[i] = .ok bs[i] := by
  induction l generalizing bs with
  | nil =>
    simp only [mapOutcome, Outcome.ok.injEq] at h; subst h; simp
  | cons a as ih =>
    simp only [mapOutcome, Outcome.bind_eq_ok, Outcome.pure_eq, Outcome.ok.injEq] at h
    obtain ⟨b, hb, bs', hbs, rfl⟩ := h
    obtain ⟨hl, hg⟩ := ih hbs
    refine ⟨by simp [hl], ?_⟩
    intro i h1 h2
    cases i with
    | zero => simpa using hb
    | succ i => simpa using hg i (by simpa using h1) (by simpa using h2)

theorem mapOutcome_of_getElem {ε β : Type} {f : α → Outcome ε β} {l : List α} {bs : List β}
    (hl : bs.length = l.length)
    (h : ∀ i (h1 : i < l.length) (h2 : i < bs.length), f l[i] = .ok bs[i]) :
    mapOutcome f l = .ok bs := by
  induction l generalizing bs with
  | nil => rw [List.length_nil, List.length_eq_zero_iff] at hl; subst hl; rfl
  | cons a as ih =>
    obtain _ | ⟨b, bs⟩ := bs
    · simp at hl
    · have h0 := h 0 (by simp) (by simp)
      simp only [List.getElem_cons_zero] at h0
      have := ih (bs := bs) (by simpa using hl) fun i h1 h2 => by
        have := h (i + 1) (by simpa using h1) (by simpa using h2)
        simpa only [List.getElem_cons_succ] using this
      simp only [mapOutcome, h0, this, Outcome.bind_ok, Outcome.pure_eq]

theorem mapOutcome_range {ε β : Type} {f : Nat → Outcome ε β} {n : Nat} {bs : List β}
    (hl : bs.length = n) (h : ∀ i (h2 : i < bs.length), f i = .ok bs[i]) :
    mapOutcome f (List.range n) = .ok bs :=
  mapOutcome_of_getElem (by simpa using hl) fun i _ h2 => by simpa using h i h2

end Flat

namespace TraceTable
variable {F : Type}

theorem nRows_ofRows (rows : List (List F)) (w : Nat) (hw : 0 < w) (h : ∀ r ∈ rows, r.length = w) :
    (ofRows rows w).nRows = rows.length := by
  unfold nRows ofRows
  simp only
  rw [if_neg (by omega), length_flatten_const rows w h, Nat.mul_div_cancel _ hw]

theorem getRow_ofRows {ε : Type} (rows : List (List F)) (w : Nat) (h : ∀ r ∈ rows, r.length = w) (i : Nat)
    (hi : i < rows.length) : ((ofRows rows w).getRow i : Outcome ε _) = .ok rows[i] :=
  subslice_flatten rows w h i hi

theorem get_ofRows {ε : Type} (rows : List (List F)) (w : Nat) (h : ∀ r ∈ rows, r.length = w) (i j : Nat)
    (hi : i < rows.length) (hj : j < w) :
    ((ofRows rows w).get i j : Outcome ε F) = index rows[i] j := by
  unfold get index ofRows
  simp only
  rw [flatten_getElem? rows w h i j hi hj]

/-- Every table whose cell count is a multiple of its width is the table of its rows. -/
theorem exists_rows (t : TraceTable F) (hw : 0 < t.nCols) (hd : t.nCols ∣ t.table.length) :
    ∃ rows, t = ofRows rows t.nCols ∧ ∀ r ∈ rows, r.length = t.nCols := by
  obtain ⟨k, hk⟩ := hd
  obtain ⟨tbl, w⟩ := t
  simp only at *
  suffices h : ∀ (k : Nat) (l : List F), l.length = w * k →
      ∃ rows : List (List F), l = rows.flatten ∧ ∀ r ∈ rows, r.length = w by
    obtain ⟨rows, h1, h2⟩ := h k tbl hk
    exact ⟨rows, by rw [h1]; rfl, h2⟩
  intro k
  induction k with
  | zero => intro l hl; exact ⟨[], by simpa using hl, by simp⟩
  | succ k ih =>
    intro l hl
    rw [Nat.mul_succ] at hl
    obtain ⟨rows, h1, h2⟩ := ih (l.drop w) (by rw [List.length_drop]; omega)
    refine ⟨l.take w :: rows, by rw [List.flatten_cons, ← h1, List.take_append_drop], ?_⟩
    intro r hr
    rcases List.mem_cons.1 hr with rfl | hr
    · rw [List.length_take]; omega
    · exact h2 r hr

/-- Row `r` of a list of columns. -/
def rowOf (cols : List (List F)) (r : Nat) : List F := cols.filterMap (·[r]?)

theorem rowOf_eq (cols : List (List F)) (n r : Nat) (h : ∀ c ∈ cols, c.length = n) (hr : r < n) :
    (rowOf cols r).length = cols.length ∧
      ∀ (j : Nat) (hj : j < cols.length), (rowOf cols r)[j]? = (cols[j])[r]? := by
  unfold rowOf
  induction cols with
  | nil => simp
  | cons c t ih =>
    obtain ⟨ih1, ih2⟩ := ih fun x hx => h x (by simp [hx])
    have hc := h c (by simp)
    rw [List.filterMap_cons, List.getElem?_eq_getElem (by omega)]
    refine ⟨by simp [ih1], ?_⟩
    intro j hj
    cases j with
    | zero => simp [hc, hr]
    | succ j => simpa using ih2 j (by simpa using hj)

theorem mapOutcome_index_rowOf (cols : List (List F)) (n r : Nat) (h : ∀ c ∈ cols, c.length = n)
    (hr : r < n) :
    (mapOutcome (fun col => index col r) cols : Outcome Empty _) = .ok (rowOf cols r) := by
  unfold rowOf
  induction cols with
  | nil => rfl
  | cons c t ih =>
    have hc := h c (by simp)
    have hi : c[r]? = some (c[r]'(by omega)) := List.getElem?_eq_getElem (by omega)
    simp only [mapOutcome, index_ok hi, ih fun x hx => h x (by simp [hx]), Outcome.bind_ok,
      Outcome.pure_eq, List.filterMap_cons, hi]

theorem newFromCols_ok (cols : List (List F)) (n : Nat) (hne : cols ≠ [])
    (h : ∀ c ∈ cols, c.length = n) :
    newFromCols cols = .ok (ofRows ((List.range n).map (rowOf cols)) cols.length) := by
  obtain ⟨c, t, rfl⟩ := List.exists_cons_of_ne_nil hne
  have hc := h c (by simp)
  unfold newFromCols
  have h0 : (index (c :: t) 0 : Outcome Empty _) = .ok c := rfl
  rw [h0, Outcome.bind_ok, hc,
    mapOutcome_ok (List.range n) (g := rowOf (c :: t)) (fun r hr =>
      mapOutcome_index_rowOf _ n r h (List.mem_range.1 hr))]
  rfl

theorem rows_len (cols : List (List F)) (n : Nat) (h : ∀ c ∈ cols, c.length = n) :
    ∀ r ∈ (List.range n).map (rowOf cols), r.length = cols.length := by
  intro r hr
  obtain ⟨i, hi, rfl⟩ := List.mem_map.1 hr
  exact (rowOf_eq cols n i h (List.mem_range.1 hi)).1

theorem get_cols_cell {ε : Type} (cols : List (List F)) (n : Nat) (h : ∀ c ∈ cols, c.length = n) (r j : Nat)
    (hr : r < n) (hj : j < cols.length) :
    (index (ofRows ((List.range n).map (rowOf cols)) cols.length).table
      (r * (ofRows ((List.range n).map (rowOf cols)) cols.length).nCols + j) : Outcome ε F)
      = index cols[j] r := by
  have := get_ofRows (ε := ε) ((List.range n).map (rowOf cols)) cols.length (rows_len cols n h) r j
    (by simpa using hr) hj
  unfold get at this
  rw [this]
  unfold index
  rw [List.getElem_map, List.getElem_range, (rowOf_eq cols n r h hr).2 j hj]

theorem cell_ok {ε : Type} (col : List F) (n r : Nat) (h : col.length = n) (hr : r < n) :
    (index col r : Outcome ε F) = .ok (col[r]'(by omega)) := by
  apply index_ok; exact List.getElem?_eq_getElem _

theorem stepBy_mul (k w : Nat) (hw : 0 < w) : stepBy (k * w) w = (List.range k).map (· * w) := by
  unfold stepBy
  congr 2
  rw [Nat.add_sub_assoc hw, Nat.add_comm, Nat.add_mul_div_right _ _ hw,
    Nat.div_eq_of_lt (by omega), Nat.zero_add]

theorem concatenateRows_ok (A B : List (List F)) (w v : Nat) (hA : ∀ r ∈ A, r.length = w)
    (hB : ∀ r ∈ B, r.length = v) (hl : A.length = B.length) (j : Nat) (hj : j ≤ A.length) :
    concatenateRows A.flatten w B.flatten v ((List.range' (A.length - j) j).map (· * w))
      ((A.length - j) * v) =
      .ok ((List.zipWith (· ++ ·) (A.drop (A.length - j)) (B.drop (A.length - j))).flatten) := by
  induction j with
  | zero => simp [concatenateRows, hl]
  | succ j ih =>
    have hi : A.length - (j + 1) < A.length := by omega
    have hs : A.length - (j + 1) + 1 = A.length - j := by omega
    rw [List.range'_succ, List.map_cons, hs]
    simp only [concatenateRows]
    rw [subslice_flatten A w hA _ hi, subslice_flatten B v hB _ (by omega)]
    have := ih (by omega)
    rw [show (A.length - (j + 1)) * v + v = (A.length - j) * v by rw [← hs]; ring, this]
    simp only [Outcome.bind_ok, Outcome.pure_eq]
    rw [List.drop_eq_getElem_cons hi, List.drop_eq_getElem_cons (l := B) (i := A.length - (j + 1)) (by omega), hs]
    simp

end TraceTable
end Verif
