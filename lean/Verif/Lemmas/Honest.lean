import Verif.Lemmas.MainTrace
import Verif.Lemmas.RcBuiltin
import Verif.Lemmas.PubMem
import Verif.Lemmas.CairoDeclared
import Verif.Props.Padding

/-! The trace of an honest run: the rows of `build_main_trace`. -/

namespace Verif.ExecTrace
open CairoAir Spec

section
variable {mem : CairoMemory} {m : FE → FE} {states : List RegistersState}

theorem _root_.Verif.Spec.HonestRun.step (run : HonestRun mem m states) {t : RegistersState}
    (ht : t ∈ states) : ∃ s', Step m (regsOf t) s' := by
  obtain ⟨i, hi, rfl⟩ := List.mem_iff_getElem.1 ht
  by_cases h : i + 1 < states.length
  · exact ⟨_, run.steps i _ _ (List.getElem?_eq_getElem hi) (List.getElem?_eq_getElem h)⟩
  · apply run.last
    rw [List.getLast?_eq_getElem?, show states.length - 1 = i by omega]
    exact List.getElem?_eq_getElem hi

theorem _root_.Verif.Spec.HonestRun.cells (run : HonestRun mem m states) {t : RegistersState}
    (ht : t ∈ states) : ∃ res, stepCells mem t = .ok (specCells m (regsOf t) res) := by
  obtain ⟨s', hw, hs⟩ := run.step ht
  obtain ⟨c, hc⟩ := stepCells_exists run.holds (run.regs t ht) hw (run.recorded t ht) (run.addr t ht)
  obtain ⟨-, res, rfl, -⟩ := stepCells_ok run.holds hc (run.addr t ht) hs.asserts
  exact ⟨res, hc⟩

theorem specCells_length (s : Regs) (res : FE) : (specCells m s res).length = 33 := by
  simp [specCells]

theorem getD_specCells (s : Regs) (res : FE) (rest : List FE) (c : Nat) (hc : c < 33) :
    (specCells m s res ++ rest).getD c 0 = (specCells m s res).getD c 0 :=
  List.getD_append _ _ _ _ (by rw [specCells_length]; exact hc)

theorem getD_specCells_rest (s : Regs) (res : FE) (rest : List FE) (c : Nat) :
    (specCells m s res ++ rest).getD (33 + c) 0 = rest.getD c 0 := by
  rw [List.getD_append_right _ _ _ _ (by rw [specCells_length]; omega), specCells_length,
    Nat.add_sub_cancel_left]

/-- The rows of the steps. -/
theorem exec_rows (run : HonestRun mem m states) {pi : PublicInputs} {exec : List (List FE)}
    (h : buildCairoExecutionTrace states mem pi = .ok exec) :
    ∃ ext : Nat → List FE,
      (∀ i (hi : i < states.length), ∃ res,
        stepCells mem states[i] = .ok (specCells m (regsOf states[i]) res) ∧
        exec[i]? = some (specCells m (regsOf states[i]) res ++
          (selector states.length i :: ext i))) ∧
      (∀ i, (ext i).length + 34 = mainWidth pi) ∧
      (∀ range, pi.memorySegments.get? .rangeCheck = some range →
        ∃ values, rcValues range mem = .ok values ∧ ext = rcCells values) := by
  obtain ⟨cells, ext, hc, -, rfl, h1, h2⟩ := exec_ok h
  refine ⟨ext, ?_, h1, h2⟩
  intro i hi
  have hl := mapOutcome_length hc
  have hci := (mapOutcome_mem hc).2 i hi (by omega)
  obtain ⟨res, hr⟩ := run.cells (List.getElem_mem hi)
  have he : cells[i] = specCells m (regsOf states[i]) res := by
    rw [hci] at hr; exact Outcome.ok.inj hr
  refine ⟨res, hr, ?_⟩
  rw [List.getElem?_mapIdx, List.getElem?_eq_getElem (by omega), he]
  rfl

theorem mem_exec (run : HonestRun mem m states) {pi : PublicInputs} {exec : List (List FE)}
    (h : buildCairoExecutionTrace states mem pi = .ok exec) {r : List FE} (hr : r ∈ exec) :
    ∃ t ∈ states, ∃ res rest, r = specCells m (regsOf t) res ++ rest := by
  obtain ⟨ext, he, -⟩ := exec_rows run h
  obtain ⟨i, hi, rfl⟩ := List.mem_iff_getElem.1 hr
  have hl := (exec_width h).1
  obtain ⟨res, -, he⟩ := he i (by omega)
  rw [List.getElem?_eq_getElem hi] at he
  exact ⟨_, List.getElem_mem (by omega), res, _, Option.some.inj he⟩

/-- The accesses of the steps. -/
theorem mem_accesses_exec (run : HonestRun mem m states) {pi : PublicInputs}
    {exec : List (List FE)} (h : buildCairoExecutionTrace states mem pi = .ok exec) (p : FE × FE) :
    p ∈ accesses exec ↔ Accessed m states p.1 ∧ p.2 = m p.1 := by
  constructor
  · intro hp
    obtain ⟨r, hr, j, hj, rfl⟩ := mem_accesses.1 hp
    obtain ⟨t, ht, res, rest, rfl⟩ := mem_exec run h hr
    rw [getD_specCells _ _ _ _ (by omega), getD_specCells _ _ _ _ (by omega)]
    interval_cases j
    · exact ⟨⟨t, ht, Or.inl rfl⟩, rfl⟩
    · exact ⟨⟨t, ht, Or.inr (Or.inl rfl)⟩, rfl⟩
    · exact ⟨⟨t, ht, Or.inr (Or.inr (Or.inl rfl))⟩, rfl⟩
    · exact ⟨⟨t, ht, Or.inr (Or.inr (Or.inr rfl))⟩, rfl⟩
  · rintro ⟨⟨t, ht, hx⟩, hv⟩
    obtain ⟨x, v⟩ := p
    simp only at hx hv
    subst hv
    obtain ⟨i, hi, rfl⟩ := List.mem_iff_getElem.1 ht
    obtain ⟨ext, he, -⟩ := exec_rows run h
    obtain ⟨res, -, he⟩ := he i hi
    rw [mem_accesses]
    refine ⟨_, List.mem_of_getElem? he, ?_⟩
    rcases hx with rfl | rfl | rfl | rfl
    · exact ⟨0, by decide, by rw [getD_specCells _ _ _ _ (by omega), getD_specCells _ _ _ _ (by omega)]; rfl⟩
    · exact ⟨1, by decide, by rw [getD_specCells _ _ _ _ (by omega), getD_specCells _ _ _ _ (by omega)]; rfl⟩
    · exact ⟨2, by decide, by rw [getD_specCells _ _ _ _ (by omega), getD_specCells _ _ _ _ (by omega)]; rfl⟩
    · exact ⟨3, by decide, by rw [getD_specCells _ _ _ _ (by omega), getD_specCells _ _ _ _ (by omega)]; rfl⟩

/-- What is required of every row by the constraints that look at one row only. -/
structure RowOk (r : List FE) : Prop where
  flags : ∀ j < 15, r.getD j 0 = 0 ∨ r.getD j 0 = 1
  c15 : r.getD 15 0 = 0
  builtin : rangeCheckBuiltin (fun c => r.getD c 0) = 0

theorem RowOk.congr {r r' : List FE} (h : RowOk r)
    (heq : ∀ c, c < 19 ∨ 26 < c → r'.getD c 0 = r.getD c 0) : RowOk r' where
  flags := fun j hj => by rw [heq j (by omega)]; exact h.flags j hj
  c15 := by rw [heq 15 (by omega)]; exact h.c15
  builtin := by
    have := h.builtin
    unfold rangeCheckBuiltin at this ⊢
    simp only [RC_0, RC_VALUE] at this ⊢
    rw [heq _ (by omega), heq _ (by omega), heq _ (by omega), heq _ (by omega), heq _ (by omega),
      heq _ (by omega), heq _ (by omega), heq _ (by omega), heq _ (by omega)]
    exact this

theorem rowOk_zero {r : List FE} (h : ∀ c, c ≠ OFF_DST → c ≠ OFF_OP0 → c ≠ OFF_OP1 →
    r.getD c 0 = 0) : RowOk r where
  flags := fun j hj => Or.inl (h j (by col_omega) (by col_omega) (by col_omega))
  c15 := h 15 (by decide) (by decide) (by decide)
  builtin := by
    unfold rangeCheckBuiltin
    simp only [RC_0, RC_VALUE]
    have h' : ∀ c, 30 ≤ c → r.getD c 0 = 0 := fun c hc =>
      h c (by col_omega) (by col_omega) (by col_omega)
    rw [h' _ (by omega), h' _ (by omega), h' _ (by omega), h' _ (by omega), h' _ (by omega),
      h' _ (by omega), h' _ (by omega), h' _ (by omega), h' _ (by omega)]
    simp

theorem rcValues_ok {range : Nat × Nat} {values : List FE}
    (hb : ∀ n, range.1 ≤ n → n < range.2 → ∃ v, mem.get? n = some v ∧ v.val < 2 ^ 128)
    (h : rcValues range mem = .ok values) : ∀ v ∈ values, v.val < 2 ^ 128 := by
  intro v hv
  obtain ⟨i, hi, rfl⟩ := List.mem_iff_getElem.1 hv
  have hl := mapOutcome_length h
  have := (mapOutcome_mem h).2 i (by omega) hi
  rw [memGet_eq_ok] at this
  rw [List.length_range'] at hl
  rw [List.getElem_range', Nat.one_mul] at this
  obtain ⟨w, hw, hlt⟩ := hb (range.1 + i) (by omega) (by omega)
  rw [hw] at this
  rw [← Option.some.inj this]; exact hlt

theorem rowOk_exec (run : HonestRun mem m states) {pi : PublicInputs} {exec : List (List FE)}
    (hb : BuiltinValues mem pi.memorySegments)
    (h : buildCairoExecutionTrace states mem pi = .ok exec) {r : List FE} (hr : r ∈ exec) :
    RowOk r := by
  obtain ⟨ext, he, hlen, hrc⟩ := exec_rows run h
  obtain ⟨i, hi, rfl⟩ := List.mem_iff_getElem.1 hr
  have hl := (exec_width h).1
  obtain ⟨res, -, he⟩ := he i (by omega)
  rw [List.getElem?_eq_getElem hi] at he
  rw [Option.some.inj he]
  refine ⟨?_, ?_, ?_⟩
  · intro j hj
    rw [getD_specCells _ _ _ _ (by omega)]
    have : (specCells m (regsOf states[i]) res).getD j 0 = flagBit (m (regsOf states[i]).pc).val j := by
      unfold specCells
      simp only [List.append_assoc]
      rw [List.getD_append _ _ _ _ (by simpa using hj)]
      simp [hj]
    rw [this]
    unfold flagBit
    split <;> simp
  · rw [getD_specCells _ _ _ _ (by omega)]; rfl
  · have hcell : ∀ c, 34 ≤ c → (specCells m (regsOf states[i]) res ++
        (selector states.length i :: ext i)).getD c 0 = (ext i).getD (c - 34) 0 := by
      intro c hc
      obtain ⟨d, rfl⟩ : ∃ d, c = 33 + (d + 1) := ⟨c - 34, by omega⟩
      rw [getD_specCells_rest, List.getD_cons_succ]
      congr 1; omega
    cases hs : pi.memorySegments.get? .rangeCheck with
    | none =>
      have : ext i = [] := by
        have := hlen i
        simp only [mainWidth, hs] at this
        exact List.length_eq_zero_iff.1 (by omega)
      unfold rangeCheckBuiltin
      simp only [RC_0, RC_VALUE]
      rw [hcell _ (by omega), hcell _ (by omega), hcell _ (by omega), hcell _ (by omega),
        hcell _ (by omega), hcell _ (by omega), hcell _ (by omega), hcell _ (by omega),
        hcell _ (by omega), this]
      simp
    | some range =>
      obtain ⟨values, hv, hext⟩ := hrc range hs
      have hvals := rcValues_ok (fun n h1 h2 => hb range.1 range.2 hs n h1 h2) hv
      cases hvi : values[i]? with
      | none =>
        have hz : ext i = List.replicate 9 0 := by rw [hext]; unfold rcCells; rw [hvi]
        unfold rangeCheckBuiltin
        simp only [RC_0, RC_VALUE]
        rw [hcell _ (by omega), hcell _ (by omega), hcell _ (by omega), hcell _ (by omega),
          hcell _ (by omega), hcell _ (by omega), hcell _ (by omega), hcell _ (by omega),
          hcell _ (by omega), hz]
        simp
      | some v =>
        have hz : ext i = decomposeRc v ++ [v] := by rw [hext]; unfold rcCells; rw [hvi]
        have hdl : (decomposeRc v).length = 8 := by simp [decomposeRc]
        rw [rangeCheckBuiltin_decompose _ v]
        · exact (rangeCheckBuiltin_iff v).2 (hvals v (List.mem_of_getElem? hvi))
        · intro k hk
          show List.getD _ (34 + k) 0 = _
          rw [hcell _ (by omega), hz, Nat.add_sub_cancel_left,
            List.getD_append _ _ _ _ (by omega)]
        · show List.getD _ 42 0 = _
          rw [hcell _ (by omega), hz, List.getD_append_right _ _ _ _ (by omega), hdl]
          rfl

/-! ### All rows -/

variable {pi pi' : PublicInputs} {rows exec : List (List FE)} {rcHoles holes last1 last2 : List FE}
  {lo hi k : Nat}

theorem offsets16 (run : HonestRun mem m states)
    (h : buildCairoExecutionTrace states mem pi = .ok exec) :
    getCols exec [OFF_DST, OFF_OP0, OFF_OP1] ≠ [] ∧
    ∀ x ∈ getCols exec [OFF_DST, OFF_OP0, OFF_OP1], x.val < 2 ^ 16 := by
  constructor
  · intro hc
    have h1 := congrArg List.length hc
    rw [length_getCols, List.length_nil] at h1
    have h2 := (exec_width h).2.1
    simp at h1
    exact h2 h1
  · intro x hx
    obtain ⟨r, hr, c, hc, rfl⟩ := mem_getCols.1 hx
    obtain ⟨t, -, res, rest, rfl⟩ := mem_exec run h hr
    have hP : 2 ^ 16 < P := lt_trans (by norm_num) P_gt
    have hbit : ∀ w pos, ((bits w pos 16 : Nat) : FE).val < 2 ^ 16 := by
      intro w pos
      have : bits w pos 16 < 2 ^ 16 := Nat.mod_lt _ (by norm_num)
      rw [ZMod.val_natCast_of_lt (by omega)]; exact this
    simp only [List.mem_cons, List.not_mem_nil, or_false] at hc
    rcases hc with rfl | rfl | rfl
    · rw [getD_specCells _ _ _ _ (by decide)]; exact hbit _ 0
    · rw [getD_specCells _ _ _ _ (by decide)]; exact hbit _ 16
    · rw [getD_specCells _ _ _ _ (by decide)]; exact hbit _ 32

theorem memoryHoleRows_other {last holes : List FE} {r : List FE}
    (hr : r ∈ memoryHoleRows last holes) (c : Nat) (hc : c < 19 ∨ 22 < c) :
    r.getD c 0 = last.getD c 0 := by
  induction holes using memoryHoleRows.induct with
  | case1 a b c' d t ih =>
    rw [memoryHoleRows] at hr
    rcases List.mem_cons.1 hr with rfl | hr
    · exact holeRow_other _ _ c hc
    · exact ih hr
  | case2 => simp [memoryHoleRows] at hr
  | case3 t h1 h2 =>
    rw [memoryHoleRows] at hr
    · rw [List.mem_singleton.1 hr]; exact holeRow_other _ _ c hc
    · exact h1
    · exact h2

theorem zeroed_other (last : List FE) (c : Nat) (hc : c < 19 ∨ 26 < c) :
    (zeroedRow last MEMORY_COLUMNS).getD c 0 = last.getD c 0 := by
  apply zeroedRow_other
  simp only [MEMORY_COLUMNS, List.mem_cons, List.not_mem_nil, or_false]
  col_omega

/-- The rows after the last step: what they have in common. -/
theorem main_rows (run : HonestRun mem m states) (hb : BuiltinValues mem pi.memorySegments)
    (M : MainSpec states mem pi rows pi' exec rcHoles lo hi holes last1 last2 k) :
    (∀ r ∈ rows, RowOk r) ∧
    (∀ i, states.length ≤ i + 1 → i < rows.length → (rows.getD i []).getD 33 0 = 0) ∧
    (∀ x : FE, x ∈ getCols rows [OFF_DST, OFF_OP0, OFF_OP1] ↔ lo ≤ x.val ∧ x.val ≤ hi) ∧
    hi < 2 ^ 16 ∧ lo ≤ hi := by
  have hge := mainWidth_ge pi
  obtain ⟨hoff1, hoff2⟩ := offsets16 run M.exec_eq
  obtain ⟨rcHoles', lo', hi', heq, hlo, hhi, h16, hset, h3, -⟩ := Props.C17_rc_holes _ hoff1 hoff2
  rw [M.rc_eq] at heq
  simp only [Outcome.ok.injEq, Prod.mk.injEq] at heq
  obtain ⟨rfl, rfl, rfl⟩ := heq
  obtain ⟨hcols, -, hrcrows⟩ := Props.C17_rc_hole_rows (mainWidth pi) (by omega) rcHoles h3
  -- the rows before the memory holes
  have hok1 : ∀ r ∈ exec ++ rcHoleRows (mainWidth pi) rcHoles, RowOk r := by
    intro r hr
    rcases List.mem_append.1 hr with hr | hr
    · exact rowOk_exec run hb M.exec_eq hr
    · exact rowOk_zero (hrcrows r hr).2
  have hlenE := (exec_width M.exec_eq).1
  have hsel1 : ∀ i, states.length ≤ i + 1 → ∀ r, (exec ++ rcHoleRows (mainWidth pi) rcHoles)[i]?
      = some r → r.getD 33 0 = 0 := by
    intro i hi r hr
    by_cases h : i < states.length
    · rw [List.getElem?_append_left (by omega)] at hr
      obtain ⟨ext, he, -⟩ := exec_rows run M.exec_eq
      obtain ⟨res, -, he⟩ := he i h
      rw [he] at hr
      rw [← Option.some.inj hr, getD_specCells_rest _ _ _ 0, List.getD_cons_zero, selector,
        if_pos (by omega)]
    · rw [List.getElem?_append_right (by omega)] at hr
      exact (hrcrows r (List.mem_of_getElem? hr)).2 33 (by decide) (by decide) (by decide)
  have hset1 : ∀ x : FE, x ∈ getCols (exec ++ rcHoleRows (mainWidth pi) rcHoles)
      [OFF_DST, OFF_OP0, OFF_OP1] ↔ lo ≤ x.val ∧ x.val ≤ hi := by
    intro x; rw [getCols_append, hcols]; exact hset x
  have hm1 := List.mem_of_getLast? M.last1_eq
  have hs1 : last1.getD 33 0 = 0 := by
    have h := M.last1_eq
    rw [List.getLast?_eq_getElem?] at h
    refine hsel1 _ ?_ _ h
    rw [List.length_append]
    have : states.length ≠ 0 := fun h => run.nonempty (List.length_eq_zero_iff.1 h)
    omega
  -- and with them
  have hok2 : ∀ r ∈ exec ++ rcHoleRows (mainWidth pi) rcHoles ++ memoryHoleRows last1 holes,
      RowOk r := by
    intro r hr
    rcases List.mem_append.1 hr with hr | hr
    · exact hok1 r hr
    · exact (hok1 _ hm1).congr fun c hc => memoryHoleRows_other hr c (by omega)
  have hsel2 : ∀ i, states.length ≤ i + 1 → ∀ r, (exec ++ rcHoleRows (mainWidth pi) rcHoles ++
      memoryHoleRows last1 holes)[i]? = some r → r.getD 33 0 = 0 := by
    intro i hi r hr
    by_cases h : i < (exec ++ rcHoleRows (mainWidth pi) rcHoles).length
    · rw [List.getElem?_append_left h] at hr
      exact hsel1 i hi r hr
    · rw [List.getElem?_append_right (by omega)] at hr
      rw [memoryHoleRows_other (List.mem_of_getElem? hr) 33 (by omega)]; exact hs1
  have hset2 : ∀ x : FE, x ∈ getCols (exec ++ rcHoleRows (mainWidth pi) rcHoles ++
      memoryHoleRows last1 holes) [OFF_DST, OFF_OP0, OFF_OP1] ↔ lo ≤ x.val ∧ x.val ≤ hi := by
    intro x
    rw [getCols_append, List.mem_append, hset1]
    constructor
    · rintro (h | h)
      · exact h
      · obtain ⟨r, hr, c, hc, rfl⟩ := mem_getCols.1 h
        rw [memoryHoleRows_other hr c (by
          simp only [List.mem_cons, List.not_mem_nil, or_false] at hc; col_omega)]
        exact (hset1 _).1 (mem_getCols.2 ⟨last1, hm1, c, hc, rfl⟩)
    · exact Or.inl
  have hm2 := List.mem_of_getLast? M.last2_eq
  have hs2 : last2.getD 33 0 = 0 := by
    have h := M.last2_eq
    rw [List.getLast?_eq_getElem?] at h
    refine hsel2 _ ?_ _ h
    simp only [List.length_append]
    have : states.length ≠ 0 := fun h => run.nonempty (List.length_eq_zero_iff.1 h)
    omega
  refine ⟨?_, ?_, ?_, h16, ?_⟩
  · intro r hr
    rw [M.rows_eq] at hr
    rcases List.mem_append.1 hr with hr | hr
    · exact hok2 r hr
    · rw [List.eq_of_mem_replicate hr]
      exact (hok2 _ hm2).congr fun c hc => zeroed_other _ c hc
  · intro i hi hlt
    rw [List.getD_eq_getElem _ _ hlt]
    have hr : rows[i]? = some rows[i] := List.getElem?_eq_getElem hlt
    generalize rows[i] = r at hr
    rw [M.rows_eq] at hr
    by_cases h : i < (exec ++ rcHoleRows (mainWidth pi) rcHoles ++
        memoryHoleRows last1 holes).length
    · rw [List.getElem?_append_left h] at hr
      exact hsel2 i hi r hr
    · rw [List.getElem?_append_right (by omega)] at hr
      rw [List.eq_of_mem_replicate (List.mem_of_getElem? hr), zeroed_other _ 33 (by omega)]
      exact hs2
  · intro x
    rw [M.rows_eq, getCols_append, List.mem_append, hset2]
    constructor
    · rintro (h | h)
      · exact h
      · obtain ⟨r, hr, c, hc, rfl⟩ := mem_getCols.1 h
        rw [List.eq_of_mem_replicate hr, zeroed_other _ c (by
          simp only [List.mem_cons, List.not_mem_nil, or_false] at hc; col_omega)]
        exact (hset2 _).1 (mem_getCols.2 ⟨last2, hm2, c, hc, rfl⟩)
    · exact Or.inl
  · have := (hset (lo : FE)).1 (List.mem_append_left _ hlo)
    omega

end
end Verif.ExecTrace
