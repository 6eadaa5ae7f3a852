import Verif.Lemmas.AuxTrace
import Verif.Lemmas.Holes
import Verif.Lemmas.ExecutionTrace
import Verif.Lemmas.Trace
import Verif.Lemmas.Validate
import Verif.Spec.Run

/-! Helper lemmas about `build_main_trace`. -/

namespace Verif.ExecTrace
open CairoAir Spec

/-- The number of columns of the main trace. -/
def mainWidth (pi : PublicInputs) : Nat :=
  match pi.memorySegments.get? .rangeCheck with
  | some _ => 43
  | none => 34

theorem mainWidth_ge (pi : PublicInputs) : 34 ≤ mainWidth pi := by
  unfold mainWidth; split <;> omega

theorem rcCells_length (values : List FE) (i : Nat) : (rcCells values i).length = 9 := by
  unfold rcCells
  split <;> simp [decomposeRc]

/-- The selector cell of step `i`. -/
def selector (n i : Nat) : FE := if i = n - 1 then 0 else 1

theorem exec_ok {states : List RegistersState} {mem : CairoMemory} {pi : PublicInputs}
    {exec : List (List FE)} (h : buildCairoExecutionTrace states mem pi = .ok exec) :
    ∃ (cells : List (List FE)) (ext : Nat → List FE),
      mapOutcome (stepCells mem) states = .ok cells ∧ states ≠ [] ∧
      exec = cells.mapIdx (fun i c => c ++ (selector states.length i :: ext i)) ∧
      (∀ i, (ext i).length + 34 = mainWidth pi) ∧
      (∀ range, pi.memorySegments.get? .rangeCheck = some range →
        ∃ values, rcValues range mem = .ok values ∧ ext = rcCells values) := by
  unfold buildCairoExecutionTrace at h
  simp only [Outcome.bind_eq_ok] at h
  obtain ⟨cells, hc, h⟩ := h
  split at h
  · cases h
  next hne =>
    have hne' : states ≠ [] := by rintro rfl; simp at hne
    split at h
    next range hr =>
      simp only [Outcome.bind_eq_ok, Outcome.pure_eq, Outcome.ok.injEq] at h
      obtain ⟨values, hv, rfl⟩ := h
      refine ⟨cells, rcCells values, hc, hne', ?_, ?_, ?_⟩
      · rw [List.mapIdx_mapIdx]
        congr 1
        funext i c
        simp [selector]
      · intro i; rw [rcCells_length]; simp [mainWidth, hr]
      · intro range' hr'
        rw [hr] at hr'; cases hr'
        exact ⟨values, hv, rfl⟩
    next hr =>
      simp only [Outcome.pure_eq, Outcome.ok.injEq] at h
      refine ⟨cells, fun _ => [], hc, hne', ?_, ?_, ?_⟩
      · rw [← h]
        congr 1
      · intro i; simp [mainWidth, hr]
      · intro range' hr'; rw [hr] at hr'; cases hr'

theorem exec_width {states : List RegistersState} {mem : CairoMemory} {pi : PublicInputs}
    {exec : List (List FE)} (h : buildCairoExecutionTrace states mem pi = .ok exec) :
    exec.length = states.length ∧ exec ≠ [] ∧ ∀ r ∈ exec, r.length = mainWidth pi := by
  obtain ⟨cells, ext, hc, hne, rfl, hext, -⟩ := exec_ok h
  have hl := mapOutcome_length hc
  refine ⟨by simp [hl], ?_, ?_⟩
  · intro he
    have := congrArg List.length he
    simp only [List.length_mapIdx, List.length_nil, hl] at this
    exact hne (List.length_eq_zero_iff.1 this)
  · intro r hr
    obtain ⟨i, hi, rfl⟩ := List.mem_iff_getElem.1 hr
    rw [List.getElem_mapIdx]
    have hi' : i < cells.length := by simpa using hi
    have ht := (mapOutcome_mem hc).2 i (by omega) hi'
    have := (stepCells_regs ht).1
    have := hext i
    simp; omega

theorem set_length_foldl {l : List (Nat × FE)} {r : List FE} :
    (l.foldl (fun r ch => r.set ch.1 ch.2) r).length = r.length := by
  induction l generalizing r with
  | nil => rfl
  | cons a t ih => simp [ih]

theorem holeRow_length (last holes : List FE) : (holeRow last holes).length = last.length :=
  set_length_foldl

theorem zeroedRow_length (last : List FE) (cols : List Nat) :
    (zeroedRow last cols).length = last.length := by
  unfold zeroedRow
  induction cols generalizing last with
  | nil => rfl
  | cons a t ih => simp [ih]

theorem rcHoleRows_length {n : Nat} (hn : 30 ≤ n) {holes : List FE} :
    ∀ r ∈ rcHoleRows n holes, r.length = n := by
  induction holes using rcHoleRows.induct with
  | case1 a b c t ih =>
    intro r hr
    rw [rcHoleRows] at hr
    rcases List.mem_cons.1 hr with rfl | hr
    · simp [OFF_DST, OFF_OP1]; omega
    · exact ih r hr
  | case2 t h =>
    intro r hr
    rw [rcHoleRows] at hr
    · simp at hr
    · exact h

theorem memoryHoleRows_length {last holes : List FE} :
    ∀ r ∈ memoryHoleRows last holes, r.length = last.length := by
  induction holes using memoryHoleRows.induct with
  | case1 a b c d t ih =>
    intro r hr
    rw [memoryHoleRows] at hr
    rcases List.mem_cons.1 hr with rfl | hr
    · exact holeRow_length _ _
    · exact ih r hr
  | case2 => intro r hr; simp [memoryHoleRows] at hr
  | case3 t h1 h2 =>
    intro r hr
    rw [memoryHoleRows] at hr
    · simp at hr; subst hr; exact holeRow_length _ _
    · exact h1
    · exact h2

/-- What the main trace consists of. -/
structure MainSpec (states : List RegistersState) (mem : CairoMemory) (pi : PublicInputs)
    (rows : List (List FE)) (pi' : PublicInputs) (exec : List (List FE)) (rcHoles : List FE)
    (lo hi : Nat) (holes last1 last2 : List FE) (k : Nat) : Prop where
  exec_eq : buildCairoExecutionTrace states mem pi = .ok exec
  rc_eq : getRcHoles (getCols exec [OFF_DST, OFF_OP0, OFF_OP1]) = .ok (rcHoles, lo, hi)
  pi_eq : pi' = { pi with
    rangeCheckMin := some (UInt16.ofNat lo), rangeCheckMax := some (UInt16.ofNat hi) }
  holes_eq : getMemoryHoles ((getCols exec ADDR_COLUMNS).insertionSort fun a b => a.val ≤ b.val)
    pi.publicMemory.length = .ok holes
  last1_eq : (exec ++ rcHoleRows (mainWidth pi) rcHoles).getLast? = some last1
  last2_eq : (exec ++ rcHoleRows (mainWidth pi) rcHoles ++ memoryHoleRows last1 holes).getLast?
    = some last2
  k_ge : pi.publicMemory.length < 4 * k
  rows_eq : rows = exec ++ rcHoleRows (mainWidth pi) rcHoles ++ memoryHoleRows last1 holes ++
    List.replicate k (zeroedRow last2 MEMORY_COLUMNS)
  rows_len : ∃ j, rows.length = 2 ^ j

theorem buildMainTrace_ok {states : List RegistersState} {mem : CairoMemory} {pi : PublicInputs}
    {rows : List (List FE)} {pi' : PublicInputs}
    (h : buildMainTrace states mem pi = .ok (rows, pi')) :
    ∃ exec rcHoles lo hi holes last1 last2 k,
      MainSpec states mem pi rows pi' exec rcHoles lo hi holes last1 last2 k := by
  unfold buildMainTrace at h
  simp only [Outcome.bind_eq_ok, Outcome.pure_eq, Outcome.ok.injEq, Prod.exists,
    Prod.mk.injEq] at h
  obtain ⟨exec, hexec, rcHoles, lo, hi, hrc, holes, hholes, last1, hl1, last2, hl2, last3, hl3,
    hrows, hpi⟩ := h
  obtain ⟨-, hne, hw⟩ := exec_width hexec
  have hcols : exec.head?.elim 0 List.length = mainWidth pi := by
    obtain ⟨r, t, rfl⟩ := List.exists_cons_of_ne_nil hne
    simpa using hw r (by simp)
  rw [hcols] at hl1 hl2 hl3 hrows
  have hlast : ∀ {l : List (List FE)} {r : List FE}, lastRow l = .ok r ↔ l.getLast? = some r := by
    intro l r
    unfold lastRow Outcome.ofOptionUnwrap
    cases l.getLast? <;> simp
  rw [hlast] at hl1 hl2 hl3
  have hl3' : last3 = zeroedRow last2 MEMORY_COLUMNS := by
    rw [List.getLast?_append, List.getLast?_replicate] at hl3
    simpa using hl3.symm
  set base := exec ++ rcHoleRows (mainWidth pi) rcHoles ++ memoryHoleRows last1 holes
  set k1 := (pi.publicMemory.length >>> 2) + 1 with hk1
  set tr := base ++ List.replicate k1 (zeroedRow last2 MEMORY_COLUMNS)
  refine ⟨exec, rcHoles, lo, hi, holes, last1, last2, k1 + (nextPowerOfTwo tr.length - tr.length),
    hexec, hrc, hpi.symm, hholes, hl1, hl2, ?_, ?_, ?_⟩
  · have : pi.publicMemory.length >>> 2 = pi.publicMemory.length / 4 := Nat.shiftRight_eq_div_pow _ 2
    omega
  · rw [← hrows, hl3', List.append_assoc, List.replicate_append_replicate]
  · refine ⟨Nat.clog 2 tr.length, ?_⟩
    rw [← hrows, List.length_append, List.length_replicate]
    have : tr.length ≤ nextPowerOfTwo tr.length := Nat.le_pow_clog (by norm_num) _
    unfold nextPowerOfTwo at *
    omega

theorem MainSpec.width {states : List RegistersState} {mem : CairoMemory} {pi : PublicInputs}
    {rows : List (List FE)} {pi' : PublicInputs} {exec : List (List FE)} {rcHoles : List FE}
    {lo hi : Nat} {holes last1 last2 : List FE} {k : Nat}
    (M : MainSpec states mem pi rows pi' exec rcHoles lo hi holes last1 last2 k) :
    last1.length = mainWidth pi ∧ last2.length = mainWidth pi ∧
    (∀ r ∈ exec ++ rcHoleRows (mainWidth pi) rcHoles ++ memoryHoleRows last1 holes,
      r.length = mainWidth pi) ∧
    ∀ r ∈ rows, r.length = mainWidth pi := by
  obtain ⟨hlen, hne, hw⟩ := exec_width M.exec_eq
  have hge := mainWidth_ge pi
  have h1 : ∀ r ∈ exec ++ rcHoleRows (mainWidth pi) rcHoles, r.length = mainWidth pi := by
    intro r hr
    rcases List.mem_append.1 hr with hr | hr
    · exact hw r hr
    · exact rcHoleRows_length (by omega) r hr
  have hl1 := h1 last1 (List.mem_of_getLast? M.last1_eq)
  have h2 : ∀ r ∈ exec ++ rcHoleRows (mainWidth pi) rcHoles ++ memoryHoleRows last1 holes,
      r.length = mainWidth pi := by
    intro r hr
    rcases List.mem_append.1 hr with hr | hr
    · exact h1 r hr
    · rw [memoryHoleRows_length r hr, hl1]
  have hl2 := h2 last2 (List.mem_of_getLast? M.last2_eq)
  refine ⟨hl1, hl2, h2, ?_⟩
  intro r hr
  rw [M.rows_eq] at hr
  rcases List.mem_append.1 hr with hr | hr
  · exact h2 r hr
  · rw [List.eq_of_mem_replicate hr, zeroedRow_length, hl2]

/-! ### Cells of the appended rows -/

/-- `omega` after unfolding the column identifiers. -/
macro "col_omega" : tactic => `(tactic| (
  try simp only [FRAME_PC, FRAME_DST_ADDR, FRAME_OP0_ADDR, FRAME_OP1_ADDR, FRAME_INST, FRAME_DST,
    FRAME_OP0, FRAME_OP1, OFF_DST, OFF_OP0, OFF_OP1, List.length_set] at *
  omega))

theorem getD_set_ne {r : List FE} {c i : Nat} {v : FE} (h : i ≠ c) :
    (r.set i v).getD c 0 = r.getD c 0 := by
  rw [List.getD_eq_getElem?_getD, List.getElem?_set_ne h, ← List.getD_eq_getElem?_getD]

theorem getD_set_eq {r : List FE} {c : Nat} {v : FE} (h : c < r.length) :
    (r.set c v).getD c 0 = v := by
  rw [List.getD_eq_getElem?_getD, List.getElem?_set_self h]; rfl

theorem zeroedRow_other (last : List FE) (cols : List Nat) (c : Nat) (hc : c ∉ cols) :
    (zeroedRow last cols).getD c 0 = last.getD c 0 := by
  unfold zeroedRow
  induction cols generalizing last with
  | nil => rfl
  | cons a t ih =>
    rw [List.foldl_cons, ih _ (fun h => hc (by simp [h])), getD_set_ne]
    rintro rfl; simp at hc

theorem zeroedRow_zero (last : List FE) (cols : List Nat) (c : Nat) (hc : c ∈ cols)
    (hl : c < last.length) : (zeroedRow last cols).getD c 0 = 0 := by
  unfold zeroedRow
  induction cols generalizing last with
  | nil => simp at hc
  | cons a t ih =>
    rw [List.foldl_cons]
    by_cases h : c ∈ t
    · exact ih _ h (by simpa using hl)
    · rcases List.mem_cons.1 hc with rfl | h'
      · have := zeroedRow_other (last.set c 0) t c h
        unfold zeroedRow at this
        rw [this, getD_set_eq hl]
      · exact absurd h' h

theorem foldl_set_other (l : List (Nat × FE)) (r : List FE) (c : Nat) (h : ∀ e ∈ l, e.1 ≠ c) :
    (l.foldl (fun r ch => r.set ch.1 ch.2) r).getD c 0 = r.getD c 0 := by
  induction l generalizing r with
  | nil => rfl
  | cons a t ih =>
    rw [List.foldl_cons, ih _ (fun e he => h e (by simp [he])), getD_set_ne (h a (by simp))]

theorem holeRow_other (last holes : List FE) (c : Nat) (hc : c < 19 ∨ 22 < c) :
    (holeRow last holes).getD c 0 = last.getD c 0 := by
  apply foldl_set_other
  intro e he
  have := (List.of_mem_zip he).1
  simp only [ADDR_COLUMNS, List.mem_cons, List.not_mem_nil, or_false] at this
  col_omega

/-- The address cells of a row of memory holes. -/
theorem holeRow_addr (last holes : List FE) (hl : 23 ≤ last.length) (hh : holes.length ≤ 4)
    (j : Nat) (hj : j < 4) :
    (holeRow last holes).getD (19 + j) 0
      = if j < holes.length then holes.getD j 0 else last.getD (19 + j) 0 := by
  have hs : ∀ (r : List FE) (i : Nat) (v : FE), r.length = last.length →
      (r.set i v).length = last.length := by intro r i v h; simpa using h
  match holes, hh with
  | [], _ => simp [holeRow]
  | [a], _ =>
    simp only [holeRow, ADDR_COLUMNS, List.zip_cons_cons, List.zip_nil_right, List.foldl_cons,
      List.foldl_nil]
    interval_cases j
    · rw [getD_set_eq (by col_omega)]; simp
    all_goals rw [getD_set_ne (by decide)]; simp
  | [a, b], _ =>
    simp only [holeRow, ADDR_COLUMNS, List.zip_cons_cons, List.zip_nil_right, List.foldl_cons,
      List.foldl_nil]
    interval_cases j
    · rw [getD_set_ne (by decide), getD_set_eq (by col_omega)]; simp
    · rw [getD_set_eq (by col_omega)]; simp
    all_goals rw [getD_set_ne (by decide), getD_set_ne (by decide)]; simp
  | [a, b, c], _ =>
    simp only [holeRow, ADDR_COLUMNS, List.zip_cons_cons, List.zip_nil_right, List.foldl_cons,
      List.foldl_nil]
    interval_cases j
    · rw [getD_set_ne (by decide), getD_set_ne (by decide), getD_set_eq (by col_omega)]; simp
    · rw [getD_set_ne (by decide), getD_set_eq (by col_omega)]; simp
    · rw [getD_set_eq (by col_omega)]; simp
    · rw [getD_set_ne (by decide), getD_set_ne (by decide), getD_set_ne (by decide)]; simp
  | [a, b, c, d], _ =>
    simp only [holeRow, ADDR_COLUMNS, List.zip_cons_cons, List.zip_nil_right, List.foldl_cons,
      List.foldl_nil]
    interval_cases j
    · rw [getD_set_ne (by decide), getD_set_ne (by decide), getD_set_ne (by decide),
        getD_set_eq (by col_omega)]; simp
    · rw [getD_set_ne (by decide), getD_set_ne (by decide), getD_set_eq (by col_omega)]; simp
    · rw [getD_set_ne (by decide), getD_set_eq (by col_omega)]; simp
    · rw [getD_set_eq (by col_omega)]; simp

/-! ### Accesses -/

/-- The four accesses of a row. -/
def rowAccesses (r : List FE) : List (FE × FE) :=
  (List.range 4).map fun j => (r.getD (19 + j) 0, r.getD (23 + j) 0)

theorem accesses_eq (rows : List (List FE)) : accesses rows = rows.flatMap rowAccesses := by
  unfold accesses
  induction rows with
  | nil => rfl
  | cons r t ih =>
    rw [List.flatMap_cons, ← ih]
    unfold getCols
    rw [List.flatMap_cons, List.flatMap_cons, List.zip_append (by rfl)]
    rfl

theorem accesses_append (a b : List (List FE)) : accesses (a ++ b) = accesses a ++ accesses b := by
  rw [accesses_eq, List.flatMap_append, ← accesses_eq, ← accesses_eq]

theorem mem_accesses {rows : List (List FE)} {p : FE × FE} :
    p ∈ accesses rows ↔ ∃ r ∈ rows, ∃ j < 4, p = (r.getD (19 + j) 0, r.getD (23 + j) 0) := by
  rw [accesses_eq, List.mem_flatMap]
  simp only [rowAccesses, List.mem_map, List.mem_range]
  constructor
  · rintro ⟨r, hr, j, hj, rfl⟩; exact ⟨r, hr, j, hj, rfl⟩
  · rintro ⟨r, hr, j, hj, rfl⟩; exact ⟨r, hr, j, hj, rfl⟩

theorem getCols_append (a b : List (List FE)) (cols : List Nat) :
    getCols (a ++ b) cols = getCols a cols ++ getCols b cols := by
  unfold getCols; rw [List.flatMap_append]

theorem mem_getCols {rows : List (List FE)} {cols : List Nat} {x : FE} :
    x ∈ getCols rows cols ↔ ∃ r ∈ rows, ∃ c ∈ cols, x = r.getD c 0 := by
  unfold getCols
  simp only [List.mem_flatMap, List.mem_map]
  constructor
  · rintro ⟨r, hr, c, hc, rfl⟩; exact ⟨r, hr, c, hc, rfl⟩
  · rintro ⟨r, hr, c, hc, rfl⟩; exact ⟨r, hr, c, hc, rfl⟩

theorem accesses_zeroed (last : List FE) (hl : 34 ≤ last.length) (k : Nat) :
    accesses (List.replicate k (zeroedRow last MEMORY_COLUMNS)) = List.replicate (4 * k) (0, 0) := by
  apply List.eq_replicate_iff.2
  refine ⟨by rw [length_accesses, List.length_replicate], ?_⟩
  intro p hp
  obtain ⟨r, hr, j, hj, rfl⟩ := mem_accesses.1 hp
  rw [List.eq_of_mem_replicate hr]
  have hz : ∀ c, 19 ≤ c → c < 27 → (zeroedRow last MEMORY_COLUMNS).getD c 0 = 0 := by
    intro c h1 h2
    apply zeroedRow_zero
    · simp only [MEMORY_COLUMNS, List.mem_cons, List.not_mem_nil, or_false]; col_omega
    · omega
  rw [hz _ (by omega) (by omega), hz _ (by omega) (by omega)]

/-- The accesses of the rows of memory holes: the holes, with some values, and possibly accesses of
the row they were copied from. -/
theorem mem_accesses_holes {last holes : List FE} (hl : 23 ≤ last.length) {p : FE × FE}
    (hp : p ∈ accesses (memoryHoleRows last holes)) :
    (∃ i, i < holes.length ∧ p = (holes.getD i 0, last.getD (23 + i % 4) 0)) ∨
      p ∈ accesses [last] := by
  have key : ∀ hs : List FE, hs.length ≤ 4 → p ∈ accesses [holeRow last hs] →
      (∃ i, i < hs.length ∧ p = (hs.getD i 0, last.getD (23 + i % 4) 0)) ∨ p ∈ accesses [last] := by
    intro hs hlen hp
    obtain ⟨r, hr, j, hj, rfl⟩ := mem_accesses.1 hp
    rw [List.mem_singleton.1 hr, holeRow_other _ _ (23 + j) (by omega),
      holeRow_addr _ _ hl hlen j hj]
    by_cases h : j < hs.length
    · left; exact ⟨j, h, by rw [if_pos h, Nat.mod_eq_of_lt hj]⟩
    · right; rw [if_neg h]; exact mem_accesses.2 ⟨last, by simp, j, hj, rfl⟩
  induction holes using memoryHoleRows.induct with
  | case1 a b c d t ih =>
    rw [memoryHoleRows, ← List.singleton_append, accesses_append, List.mem_append] at hp
    rcases hp with hp | hp
    · rcases key _ (by simp) hp with ⟨i, hi, rfl⟩ | h
      · left
        refine ⟨i, by simp at hi ⊢; omega, ?_⟩
        simp at hi
        interval_cases i <;> rfl
      · exact Or.inr h
    · rcases ih hp with ⟨i, hi, rfl⟩ | h
      · left
        refine ⟨i + 4, by simp; omega, ?_⟩
        rw [Nat.add_mod_right]
        rfl
      · exact Or.inr h
  | case2 => simp [memoryHoleRows, accesses, getCols] at hp
  | case3 t h1 h2 =>
    rw [memoryHoleRows] at hp
    · refine key _ ?_ hp
      match t, h2 with
      | [], _ => simp
      | [_], _ => simp
      | [_, _], _ => simp
      | [_, _, _], _ => simp
      | a :: b :: c :: d :: t, h => exact absurd rfl (h1 a b c d t)
    · exact h1
    · exact h2

theorem holes_accessed {last holes : List FE} (hl : 23 ≤ last.length) {x : FE} (hx : x ∈ holes) :
    ∃ v, (x, v) ∈ accesses (memoryHoleRows last holes) := by
  have key : ∀ hs : List FE, hs.length ≤ 4 → x ∈ hs → ∃ v, (x, v) ∈ accesses [holeRow last hs] := by
    intro hs hlen hx
    obtain ⟨j, hj, rfl⟩ := List.mem_iff_getElem.1 hx
    refine ⟨(holeRow last hs).getD (23 + j) 0,
      mem_accesses.2 ⟨_, List.mem_singleton.2 rfl, j, by omega, ?_⟩⟩
    · rw [holeRow_addr _ _ hl hlen j (by omega), if_pos hj, List.getD_eq_getElem _ _ hj]
  induction holes using memoryHoleRows.induct with
  | case1 a b c d t ih =>
    rw [memoryHoleRows, ← List.singleton_append, accesses_append]
    have : x ∈ [a, b, c, d] ∨ x ∈ t := by simpa [or_assoc] using hx
    rcases this with h | h
    · obtain ⟨v, hv⟩ := key _ (by simp) h
      exact ⟨v, List.mem_append_left _ hv⟩
    · obtain ⟨v, hv⟩ := ih h
      exact ⟨v, List.mem_append_right _ hv⟩
  | case2 => simp at hx
  | case3 t h1 h2 =>
    rw [memoryHoleRows]
    · refine key _ ?_ hx
      match t, h2 with
      | [], _ => simp
      | [_], _ => simp
      | [_, _], _ => simp
      | [_, _, _], _ => simp
      | a :: b :: c :: d :: t, h => exact absurd rfl (h1 a b c d t)
    · exact h1
    · exact h2

/-! ### Sorted lists without gaps -/

/-- In a list sorted by a key, every value of which between consecutive keys occurs, consecutive keys
differ by at most one. -/
theorem consecutive_keys {α : Type} (key : α → Nat) (l : List α) (d : α)
    (hs : l.Pairwise fun x y => key x ≤ key y)
    (hgap : ∀ x, (∃ a ∈ l, key a < x) → (∃ b ∈ l, x < key b) → ∃ e ∈ l, key e = x) (k : Nat)
    (hk : k + 1 < l.length) :
    key (l.getD k d) ≤ key (l.getD (k + 1) d) ∧ key (l.getD (k + 1) d) ≤ key (l.getD k d) + 1 := by
  have hpw : ∀ i j (hi : i < l.length) (hj : j < l.length), i ≤ j → key l[i] ≤ key l[j] := by
    intro i j hi hj hij
    rcases Nat.lt_or_eq_of_le hij with h | h
    · exact List.pairwise_iff_getElem.1 hs i j hi hj h
    · subst h; exact le_rfl
  rw [List.getD_eq_getElem _ _ hk, List.getD_eq_getElem _ _ (by omega)]
  refine ⟨hpw _ _ _ _ (by omega), ?_⟩
  by_contra hc
  obtain ⟨e, he, hx⟩ := hgap (key l[k] + 1) ⟨l[k], List.getElem_mem _, by omega⟩
    ⟨l[k + 1], List.getElem_mem _, by omega⟩
  obtain ⟨j, hj, rfl⟩ := List.mem_iff_getElem.1 he
  rcases Nat.lt_or_ge k j with h | h
  · have := hpw (k + 1) j hk hj h; omega
  · have := hpw j k hj (by omega) h; omega

/-- Field elements whose representatives are consecutive differ by zero or one. -/
theorem fe_step {a b : FE} (h1 : a.val ≤ b.val) (h2 : b.val ≤ a.val + 1) : b = a ∨ b = a + 1 := by
  have hs : (b - a).val = b.val - a.val := ZMod.val_sub h1
  rcases Nat.lt_or_ge a.val b.val with h | h
  · right
    have : (b - a).val = 1 := by omega
    have : b - a = 1 := ZMod.val_injective P (by rw [this]; decide)
    linear_combination this
  · left; exact ZMod.val_injective P (by omega)

end Verif.ExecTrace
