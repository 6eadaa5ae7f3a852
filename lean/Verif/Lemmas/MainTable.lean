import Verif.Model.MainTable
import Verif.Lemmas.MainTrace
import Verif.Lemmas.Trace
import Verif.Lemmas.HonestExists
import Verif.Lemmas.AuxTrace

/-!
# Relating the two models of the main trace
-/

namespace Verif.MainTable
open CairoAir ExecTrace

/-! ## The values of one step -/

/-- The values computed for one step. -/
structure StepVals where
  f : CairoInstructionFlags
  o : InstructionOffsets
  dstAddr : FE
  dst0 : FE
  op0Addr : FE
  op00 : FE
  op1Addr : FE
  op1 : FE
  res0 : FE
  op0 : FE
  dst : FE
  res : FE
  repr : List FE
  inst : FE

/-- How the values of a step are related. -/
structure StepVals.Of (mem : CairoMemory) (t : RegistersState) (v : StepVals) : Prop where
  fo : instructionFlagsAndOffsets mem t = .ok (v.f, v.o)
  dst : computeDst v.f v.o t mem = .ok (v.dstAddr, v.dst0)
  op0 : computeOp0 v.f v.o t mem = .ok (v.op0Addr, v.op00)
  op1 : computeOp1 v.f v.o t mem v.op00 = .ok (v.op1Addr, v.op1)
  res : computeRes v.f v.op00 v.op1 v.dst0 = .ok v.res0
  upd : updateValues v.f t v.op00 v.dst0 v.res0 = .ok (v.op0, v.dst, v.res)
  repr : v.f.toTrace = .ok v.repr
  inst : memGet mem t.pc = .ok v.inst

/-- The cells of a step. -/
def StepVals.cells (t : RegistersState) (v : StepVals) : List FE :=
  v.repr ++ [v.res, (t.ap : FE), (t.fp : FE), (t.pc : FE), v.dstAddr, v.op0Addr, v.op1Addr,
    v.inst, v.dst, v.op0, v.op1] ++ v.o.toTrace ++
    [v.repr.getD 9 0 * v.dst, v.repr.getD 9 0 * v.dst * v.res, v.op0 * v.op1]

theorem stepCells_iff {mem : CairoMemory} {t : RegistersState} {c : List FE} :
    stepCells mem t = .ok c ↔ ∃ v : StepVals, v.Of mem t ∧ c = v.cells t := by
  unfold stepCells
  simp only [Outcome.bind_eq_ok, unwrapErr_eq_ok, Outcome.pure_eq, Outcome.ok.injEq]
  constructor
  · rintro ⟨⟨f, o⟩, h1, ⟨da, d⟩, h2, ⟨aa, a⟩, h3, ⟨ba, b⟩, h4, r, h5, ⟨a', d', r'⟩, h6, rp, h7, i, h8,
      rfl⟩
    exact ⟨⟨f, o, da, d, aa, a, ba, b, r, a', d', r', rp, i⟩, ⟨h1, h2, h3, h4, h5, h6, h7, h8⟩, rfl⟩
  · rintro ⟨v, h, rfl⟩
    exact ⟨_, h.fo, _, h.dst, _, h.op0, _, h.op1, _, h.res, _, h.upd, _, h.repr, _, h.inst, rfl⟩

theorem toTrace_length {f : CairoInstructionFlags} {r : List FE} (h : f.toTrace = .ok r) :
    r.length = 16 := by
  unfold CairoInstructionFlags.toTrace at h
  simp only [Outcome.bind_eq_ok, Outcome.pure_eq, Outcome.ok.injEq] at h
  obtain ⟨a, -, b, -, rfl⟩ := h
  rfl

/-! ## In-place updates -/

theorem setAt_mid {α : Type} (p s : List α) (x y : α) :
    setAt (p ++ x :: s) p.length y = .ok (p ++ y :: s) := by
  unfold setAt
  rw [if_pos (by simp)]
  simp

theorem index_mid {ε α : Type} (p s : List α) (x : α) :
    (index (p ++ x :: s) p.length : Outcome ε α) = .ok x := index_ok (by simp)

/-- The loop of `update_values` is an element-wise map. -/
theorem updateLoop_eq (fs : List CairoInstructionFlags) :
    ∀ (pf : List CairoInstructionFlags) (pt ts : List RegistersState) (p0 p1 p2 a b c : List FE),
    pt.length = pf.length → p0.length = pf.length → p1.length = pf.length →
    p2.length = pf.length → ts.length = fs.length → a.length = fs.length → b.length = fs.length →
    c.length = fs.length →
    updateLoop (pf ++ fs) (pt ++ ts) fs pf.length (p0 ++ a) (p1 ++ b) (p2 ++ c) =
      (mapOutcome (fun x => updateValues x.1 x.2.1 x.2.2.1 x.2.2.2.1 x.2.2.2.2)
        (fs.zip (ts.zip (a.zip (b.zip c))))) >>= fun r =>
      .ok (p0 ++ r.map (·.1), p1 ++ r.map (·.2.1), p2 ++ r.map (·.2.2)) := by
  induction fs with
  | nil =>
    intro pf pt ts p0 p1 p2 a b c _ _ _ _ h1 h2 h3 h4
    simp only [List.length_nil, List.length_eq_zero_iff] at h1 h2 h3 h4
    subst h1 h2 h3 h4
    simp [updateLoop, mapOutcome]
  | cons f fs ih =>
    intro pf pt ts p0 p1 p2 a b c ht h0 h1 h2 l1 l2 l3 l4
    obtain _ | ⟨t, ts⟩ := ts
    · simp at l1
    obtain _ | ⟨x, a⟩ := a
    · simp at l2
    obtain _ | ⟨y, b⟩ := b
    · simp at l3
    obtain _ | ⟨z, c⟩ := c
    · simp at l4
    have hrec : ∀ x' y' z', updateLoop (pf ++ f :: fs) (pt ++ t :: ts) fs (pf.length + 1)
        (p0 ++ x' :: a) (p1 ++ y' :: b) (p2 ++ z' :: c) = _ := fun x' y' z' => by
      have := ih (pf ++ [f]) (pt ++ [t]) ts (p0 ++ [x']) (p1 ++ [y']) (p2 ++ [z']) a b c
        (by simp [ht]) (by simp [h0]) (by simp [h1]) (by simp [h2]) (by simpa using l1)
        (by simpa using l2) (by simpa using l3) (by simpa using l4)
      simpa only [List.length_append, List.length_cons, List.length_nil, Nat.zero_add,
        List.append_assoc, List.cons_append, List.nil_append] using this
    have e0 : ∀ y, setAt (p0 ++ x :: a) pf.length y = .ok (p0 ++ y :: a) :=
      fun y => by rw [← h0, setAt_mid]
    have e1 : ∀ w, setAt (p1 ++ y :: b) pf.length w = .ok (p1 ++ w :: b) :=
      fun y => by rw [← h1, setAt_mid]
    have e2 : ∀ y, setAt (p2 ++ z :: c) pf.length y = .ok (p2 ++ y :: c) :=
      fun y => by rw [← h2, setAt_mid]
    have et : (index (pt ++ t :: ts) pf.length : Run _) = .ok t := by rw [← ht, index_mid]
    have ed : (index (p1 ++ y :: b) pf.length : Run _) = .ok y := by rw [← h1, index_mid]
    simp only [List.zip_cons_cons, mapOutcome, updateLoop, index_mid, et, ed, Outcome.bind_ok, e0,
      e1, e2, hrec, bind_assoc, Outcome.pure_eq]
    unfold updateValues
    cases hop : f.opcode <;> simp only [reduceCtorEq, if_false, if_true, Outcome.bind_ok,
      List.map_cons]
    by_cases hb : t.pc + (if f.op1Src = .imm then 2 else 1) < 2 ^ 64
    · simp only [hb, if_true, Outcome.bind_ok]
    · simp only [hb, if_false, Outcome.bind_panic]

theorem run_ext {α : Type} {x y : Run α} (h1 : ∀ v, x = .ok v → ∃ w, y = .ok w)
    (h2 : ∀ v, y = .ok v → x = .ok v) : x = y := by
  cases y with
  | ok v => exact h2 v rfl
  | err e => exact e.elim
  | panic =>
    cases x with
    | ok v => obtain ⟨w, hw⟩ := h1 v rfl; cases hw
    | err e => exact e.elim
    | panic => rfl

/-! ## The columns of the execution trace -/

variable {mem : CairoMemory} {states : List RegistersState}

/-- Every step has its values. -/
def AllVals (mem : CairoMemory) (states : List RegistersState) (vs : List StepVals) : Prop :=
  vs.length = states.length ∧
    ∀ i (h1 : i < vs.length) (h2 : i < states.length), vs[i].Of mem states[i]

theorem fos_of_vals {vs : List StepVals} (h : AllVals mem states vs) :
    flagsAndOffsets states mem = .ok (vs.map fun v => (v.f, v.o)) := by
  unfold flagsAndOffsets
  refine mapOutcome_of_getElem (by simp [h.1]) fun i h1 h2 => ?_
  simpa using (h.2 i (by simpa using h2) h1).fo

theorem dsts_of_vals {vs : List StepVals} (h : AllVals mem states vs) :
    computeDsts (vs.map (·.f)) (vs.map (·.o)) states mem =
      .ok (vs.map (·.dstAddr), vs.map (·.dst0)) := by
  unfold computeDsts
  rw [mapOutcome_of_getElem (bs := vs.map fun v => (v.dstAddr, v.dst0)) (by simp [h.1])
    fun i h1 h2 => ?_]
  · simp [List.unzip_eq_map, Function.comp_def]
  · simpa using (h.2 i (by simpa using h2) (by simp at h1; exact h1.2)).dst

theorem op0s_of_vals {vs : List StepVals} (h : AllVals mem states vs) :
    computeOp0s (vs.map (·.f)) (vs.map (·.o)) states mem =
      .ok (vs.map (·.op0Addr), vs.map (·.op00)) := by
  unfold computeOp0s
  rw [mapOutcome_of_getElem (bs := vs.map fun v => (v.op0Addr, v.op00)) (by simp [h.1])
    fun i h1 h2 => ?_]
  · simp [List.unzip_eq_map, Function.comp_def]
  · simpa using (h.2 i (by simpa using h2) (by simp at h1; exact h1.2)).op0

theorem op1s_of_vals {vs : List StepVals} (h : AllVals mem states vs) :
    computeOp1s (vs.map (·.f)) (vs.map (·.o)) states mem (vs.map (·.op00)) =
      .ok (vs.map (·.op1Addr), vs.map (·.op1)) := by
  unfold computeOp1s
  rw [mapOutcome_of_getElem (bs := vs.map fun v => (v.op1Addr, v.op1)) (by simp [h.1])
    fun i h1 h2 => ?_]
  · simp [List.unzip_eq_map, Function.comp_def]
  · simpa using (h.2 i (by simpa using h2) (by simp at h1; exact h1.2)).op1

theorem ress_of_vals {vs : List StepVals} (h : AllVals mem states vs) :
    computeRess (vs.map (·.f)) (vs.map (·.op00)) (vs.map (·.op1)) (vs.map (·.dst0)) =
      .ok (vs.map (·.res0)) := by
  unfold computeRess
  refine mapOutcome_of_getElem (by simp) fun i h1 h2 => ?_
  have h3 : i < vs.length := by simpa using h2
  simpa using (h.2 i h3 (h.1 ▸ h3)).res

theorem upd_of_vals {vs : List StepVals} (h : AllVals mem states vs) :
    updateAll (vs.map (·.f)) states (vs.map (·.op00)) (vs.map (·.dst0)) (vs.map (·.res0)) =
      .ok (vs.map (·.op0), vs.map (·.dst), vs.map (·.res)) := by
  unfold updateAll
  have := updateLoop_eq (vs.map (·.f)) [] [] states [] [] [] (vs.map (·.op00)) (vs.map (·.dst0))
    (vs.map (·.res0)) rfl rfl rfl rfl (by simp [h.1]) (by simp) (by simp) (by simp)
  simp only [List.nil_append, List.length_nil] at this
  rw [this, mapOutcome_of_getElem (bs := vs.map fun v => (v.op0, v.dst, v.res)) (by simp [h.1])
    fun i h1 h2 => ?_]
  · simp [Function.comp_def]
  · have h3 : i < vs.length := by simpa using h2
    simpa using (h.2 i h3 (h.1 ▸ h3)).upd

theorem repr_of_vals {vs : List StepVals} (h : AllVals mem states vs) :
    (mapOutcome (fun f => (CairoInstructionFlags.toTrace f).unwrapErr) (vs.map (·.f)) : Run _) =
      .ok (vs.map (·.repr)) := by
  refine mapOutcome_of_getElem (by simp) fun i h1 h2 => ?_
  have h3 : i < vs.length := by simpa using h2
  simpa [unwrapErr_eq_ok] using (h.2 i h3 (h.1 ▸ h3)).repr

theorem inst_of_vals {vs : List StepVals} (h : AllVals mem states vs) :
    mapOutcome (fun t : RegistersState => memGet mem t.pc) states = .ok (vs.map (·.inst)) := by
  refine mapOutcome_of_getElem (by simp [h.1]) fun i h1 h2 => ?_
  simpa using (h.2 i (by simpa using h2) h1).inst

theorem repr_length {vs : List StepVals} (h : AllVals mem states vs) {v : StepVals} (hv : v ∈ vs) :
    v.repr.length = 16 := by
  obtain ⟨i, hi, rfl⟩ := List.mem_iff_getElem.1 hv
  exact toTrace_length (h.2 i hi (h.1 ▸ hi)).repr

theorem t0_of_vals {vs : List StepVals} (h : AllVals mem states vs) :
    (mapOutcome (fun (r, dst) => do
      let b ← index r 9
      return b * dst) ((vs.map (·.repr)).zip (vs.map (·.dst))) : Run (List FE)) =
      .ok (vs.map fun v => v.repr.getD 9 0 * v.dst) := by
  refine mapOutcome_of_getElem (by simp) fun i h1 h2 => ?_
  have h3 : i < vs.length := by simpa using h2
  have hl := repr_length h (List.getElem_mem h3)
  simp only [List.getElem_zip, List.getElem_map]
  rw [index_ok (a := vs[i].repr.getD 9 0) (by
    rw [List.getElem?_eq_getElem (by omega), List.getD_eq_getElem _ _ (by omega)])]
  rfl

theorem rowsToCols_eq {α : Type} (vs : List α) (g : α → List FE) (w : Nat) (hne : vs ≠ [])
    (hg : ∀ v ∈ vs, (g v).length = w) :
    rowsToCols (vs.map g) = .ok ((List.range w).map fun c => vs.map fun v => (g v).getD c 0) := by
  obtain ⟨v, vs, rfl⟩ := List.exists_cons_of_ne_nil hne
  unfold rowsToCols
  rw [index_ok (a := g v) (by simp)]
  simp only [Outcome.bind_ok, hg v (by simp)]
  refine mapOutcome_range (by simp) fun c hc => ?_
  have hc' : c < w := by simpa using hc
  refine mapOutcome_of_getElem (by simp) fun i h1 h2 => ?_
  have h3 : i < (v :: vs).length := by simpa using h1
  have := hg _ (List.getElem_mem h3)
  simp only [List.getElem_map, List.getElem_range]
  exact index_ok (by rw [List.getElem?_eq_getElem (by omega), List.getD_eq_getElem _ _ (by omega)])

theorem range_getD (r : List FE) (w : Nat) (h : r.length = w) :
    (List.range w).map (fun c => r.getD c 0) = r := by
  subst h
  refine List.ext_getElem (by simp) fun i h1 h2 => ?_
  simp [h2]

/-- The columns of the execution trace before those of the builtin. -/
def baseCols (states : List RegistersState) (vs : List StepVals) : List (List FE) :=
  (List.range 16).map (fun c => vs.map fun v => v.repr.getD c 0) ++ [vs.map (·.res)] ++
    [states.map fun t => ((t.ap : Nat) : FE)] ++ [states.map fun t => ((t.fp : Nat) : FE)] ++
    [states.map fun t => ((t.pc : Nat) : FE)] ++ [vs.map (·.dstAddr)] ++ [vs.map (·.op0Addr)] ++
    [vs.map (·.op1Addr)] ++ [vs.map (·.inst)] ++ [vs.map (·.dst)] ++ [vs.map (·.op0)] ++
    [vs.map (·.op1)] ++ (List.range 3).map (fun c => vs.map fun v => v.o.toTrace.getD c 0) ++
    [vs.map fun v => v.repr.getD 9 0 * v.dst] ++
    [vs.map fun v => v.repr.getD 9 0 * v.dst * v.res] ++ [vs.map fun v => v.op0 * v.op1] ++
    [(List.replicate states.length (1 : FE)).set (states.length - 1) 0]

theorem baseCols_length {vs : List StepVals} (h : AllVals mem states vs) :
    (baseCols states vs).length = 34 ∧ ∀ c ∈ baseCols states vs, c.length = states.length := by
  refine ⟨by simp [baseCols], ?_⟩
  have := h.1
  intro c hc
  simp only [baseCols, List.mem_append, List.mem_map, List.mem_range, List.mem_singleton] at hc
  rcases hc with (((((((((((((((⟨_, _, rfl⟩ | rfl) | rfl) | rfl) | rfl) | rfl) | rfl) | rfl) | rfl) |
    rfl) | rfl) | rfl) | ⟨_, _, rfl⟩) | rfl) | rfl) | rfl) | rfl <;> simp [this]

theorem rowOf_append {F : Type} (a b : List (List F)) (i : Nat) :
    TraceTable.rowOf (a ++ b) i = TraceTable.rowOf a i ++ TraceTable.rowOf b i := by
  simp [TraceTable.rowOf]

theorem rowOf_map {F α : Type} (l : List α) (g : α → List F) (k : α → F) (i : Nat)
    (h : ∀ a ∈ l, (g a)[i]? = some (k a)) : TraceTable.rowOf (l.map g) i = l.map k := by
  unfold TraceTable.rowOf
  rw [List.filterMap_map]
  induction l with
  | nil => rfl
  | cons a l ih =>
    rw [List.filterMap_cons_some (f := (fun x : List F => x[i]?) ∘ g) (h a (by simp)),
      ih fun a ha => h a (by simp [ha])]
    rfl

theorem rowOf_single {F : Type} (l : List F) (x : F) (i : Nat) (h : l[i]? = some x) :
    TraceTable.rowOf [l] i = [x] := by
  simp [TraceTable.rowOf, h]

theorem baseCols_row {vs : List StepVals} (h : AllVals mem states vs) (i : Nat)
    (hi : i < vs.length) (hs : i < states.length) :
    TraceTable.rowOf (baseCols states vs) i =
      vs[i].cells states[i] ++ [if i = states.length - 1 then (0 : FE) else 1] := by
  have e : ∀ g : StepVals → FE, (vs.map g)[i]? = some (g vs[i]) := fun g => by simp [hi]
  have e' : ∀ g : RegistersState → FE, (states.map g)[i]? = some (g states[i]) := fun g => by
    simp [hs]
  unfold baseCols
  simp only [rowOf_append]
  rw [rowOf_map (k := fun c => vs[i].repr.getD c 0) (h := fun c _ => e _),
    rowOf_map (k := fun c => vs[i].o.toTrace.getD c 0) (h := fun c _ => e _),
    range_getD _ _ (repr_length h (List.getElem_mem hi)), range_getD _ 3 rfl]
  simp only [rowOf_single _ _ _ (e _), rowOf_single _ _ _ (e' _)]
  rw [rowOf_single _ (if i = states.length - 1 then (0 : FE) else 1)]
  · simp [StepVals.cells]
  · rw [List.getElem?_set]
    by_cases hi' : i = states.length - 1
    · rw [if_pos hi'.symm, if_pos hi', if_pos (by simp; omega)]
    · rw [if_neg (by omega), if_neg hi']; simp [hs]

/-! ## The columns of the builtin -/

theorem decomposeLoop_eq (k : Nat) : ∀ values : List Nat, decomposeLoop k values =
    (List.range k).map fun j => values.map fun x => ((x >>> (16 * j) &&& 0xFFFF : Nat) : FE) := by
  induction k with
  | zero => intro _; rfl
  | succ k ih =>
    intro values
    rw [decomposeLoop, ih, List.range_succ_eq_map]
    simp only [List.map_cons, List.map_map, Nat.mul_zero, Nat.shiftRight_zero, List.cons.injEq,
      true_and]
    refine List.map_congr_left fun j _ => ?_
    simp only [Function.comp_def]
    refine List.map_congr_left fun x _ => ?_
    rw [← Nat.shiftRight_add, show 16 + 16 * j = 16 * j.succ by rw [Nat.succ_eq_add_one]; ring]

theorem resize_length (l : List FE) (n : Nat) : (resize l n).length = n := by
  simp [resize]; omega

theorem resize_getElem? (l : List FE) (n i : Nat) (h : i < n) :
    (resize l n)[i]? = some (l.getD i 0) := by
  unfold resize
  by_cases hl : i < l.length
  · rw [List.getElem?_append_left (by simp; omega), List.getElem?_take_of_lt h,
      List.getElem?_eq_getElem hl, List.getD_eq_getElem _ _ hl]
  · rw [List.getElem?_append_right (by simp; omega), List.getElem?_replicate,
      if_pos (by simp; omega), List.getD_eq_default _ _ (by omega)]

/-- The columns of the builtin. -/
def rcCols (values : List FE) (n : Nat) : List (List FE) :=
  (decomposeColumns values).map (fun c => resize c n) ++ [resize values n]

theorem rcCols_length (values : List FE) (n : Nat) :
    (rcCols values n).length = 9 ∧ ∀ c ∈ rcCols values n, c.length = n := by
  refine ⟨by simp [rcCols, decomposeColumns, decomposeLoop], fun c hc => ?_⟩
  simp only [rcCols, List.mem_append, List.mem_map, List.mem_singleton] at hc
  rcases hc with ⟨_, _, rfl⟩ | rfl <;> exact resize_length _ _

theorem rcCols_row (values : List FE) (n i : Nat) (h : i < n) :
    TraceTable.rowOf (rcCols values n) i = rcCells values i := by
  unfold rcCols decomposeColumns
  rw [rowOf_append, rowOf_single _ _ _ (resize_getElem? _ _ _ h),
    rowOf_map (k := fun c => c.getD i 0) (h := fun c _ => resize_getElem? _ _ _ h),
    decomposeLoop_eq, List.map_map]
  unfold rcCells
  by_cases hl : i < values.length
  · rw [List.getElem?_eq_getElem hl, List.getD_eq_getElem _ _ hl]
    simp only [decomposeRc]
    congr 1
    refine List.map_congr_left fun j _ => ?_
    simp [hl]
  · rw [List.getElem?_eq_none (by omega), List.getD_eq_default _ _ (by omega)]
    simp only [Function.comp_def]
    rw [List.map_congr_left (g := fun _ => (0 : FE)) fun j _ => List.getD_eq_default _ _ (by
      simp; omega)]
    rfl

/-! ## The execution trace -/

theorem vals_of_cells {cells : List (List FE)} (h : mapOutcome (stepCells mem) states = .ok cells) :
    ∃ vs, AllVals mem states vs ∧ ∀ i (h1 : i < cells.length) (h2 : i < vs.length)
      (h3 : i < states.length), cells[i] = vs[i].cells states[i] := by
  induction states generalizing cells with
  | nil =>
    simp only [mapOutcome, Outcome.ok.injEq] at h
    subst h
    exact ⟨[], ⟨rfl, by simp⟩, by simp⟩
  | cons t ts ih =>
    simp only [mapOutcome, Outcome.bind_eq_ok, Outcome.pure_eq, Outcome.ok.injEq] at h
    obtain ⟨c, hc, cs, hcs, rfl⟩ := h
    obtain ⟨v, hv, rfl⟩ := stepCells_iff.1 hc
    obtain ⟨vs, hvs, hcell⟩ := ih hcs
    refine ⟨v :: vs, ⟨by simp [hvs.1], ?_⟩, ?_⟩
    · intro i h1 h2
      cases i with
      | zero => exact hv
      | succ i => exact hvs.2 i (by simpa using h1) (by simpa using h2)
    · intro i h1 h2 h3
      cases i with
      | zero => rfl
      | succ i => exact hcell i (by simpa using h1) (by simpa using h2) (by simpa using h3)

theorem exec_of_rows {pi : PublicInputs} {rows : List (List FE)}
    (h : ExecTrace.buildCairoExecutionTrace states mem pi = .ok rows) :
    buildCairoExecutionTrace states mem pi = .ok (TraceTable.ofRows rows (mainWidth pi)) := by
  unfold ExecTrace.buildCairoExecutionTrace at h
  simp only [Outcome.bind_eq_ok] at h
  obtain ⟨cells, hc, h⟩ := h
  obtain ⟨vs, hvs, hcell⟩ := vals_of_cells hc
  have hcl : cells.length = states.length := (mapOutcome_mem hc).1
  have hvl := hvs.1
  split at h
  · cases h
  next hne =>
  have hvne : vs ≠ [] := by rintro rfl; simp at hvl; omega
  have hbase := baseCols_length hvs
  have hbne : ∃ c, (baseCols states vs)[0]? = some c ∧ c.length = states.length :=
    ⟨(baseCols states vs)[0]'(by omega), List.getElem?_eq_getElem _, hbase.2 _ (List.getElem_mem _)⟩
  unfold buildCairoExecutionTrace
  rw [unwrapErr_eq_ok.2 (fos_of_vals hvs)]
  simp only [Outcome.bind_ok, List.unzip_eq_map, List.map_map,
    Function.comp_def]
  rw [dsts_of_vals hvs, op0s_of_vals hvs]
  simp only [Outcome.bind_ok]
  rw [op1s_of_vals hvs]
  simp only [Outcome.bind_ok]
  rw [ress_of_vals hvs]
  simp only [Outcome.bind_ok]
  rw [upd_of_vals hvs]
  simp only [Outcome.bind_ok]
  rw [repr_of_vals hvs, inst_of_vals hvs]
  simp only [Outcome.bind_ok]
  rw [t0_of_vals hvs, rowsToCols_eq vs _ 16 hvne fun v hv => repr_length hvs hv,
    rowsToCols_eq vs (fun v => v.o.toTrace) 3 hvne fun v hv => rfl]
  unfold setAt steps
  rw [if_pos (by simp; omega)]
  simp only [Outcome.bind_ok]
  have e1 : ((vs.map fun v => v.repr.getD 9 0 * v.dst).zip (vs.map (·.res))).map
      (fun x : FE × FE => x.1 * x.2) = vs.map fun v => v.repr.getD 9 0 * v.dst * v.res := by
    rw [List.zip_map']; simp
  have e2 : ((vs.map (·.op0)).zip (vs.map (·.op1))).map (fun x : FE × FE => x.1 * x.2) =
      vs.map fun v => v.op0 * v.op1 := by rw [List.zip_map']; simp
  rw [e1, e2]
  have hfin : ∀ (cols : List (List FE)) (ext : Nat → List FE), (∀ c ∈ cols, c.length = states.length) →
      (∀ i < states.length, TraceTable.rowOf cols i = ext i) →
      rows = cells.mapIdx (fun i c => c ++ (if i = states.length - 1 then (0 : FE) else 1) :: ext i) →
      34 + cols.length = mainWidth pi →
      TraceTable.newFromCols (baseCols states vs ++ cols) =
        .ok (TraceTable.ofRows rows (mainWidth pi)) := by
    intro cols ext hlen hext hrows hw
    rw [TraceTable.newFromCols_ok _ states.length (by simp [baseCols]) (by
      intro c hc
      rcases List.mem_append.1 hc with hc | hc
      · exact hbase.2 c hc
      · exact hlen c hc), List.length_append, hbase.1, hw, hrows]
    congr 2
    refine List.ext_getElem (by simp [hcl]) fun i h1 h2 => ?_
    have hi : i < states.length := by simpa using h1
    simp only [List.getElem_map, List.getElem_range, List.getElem_mapIdx]
    rw [rowOf_append, baseCols_row hvs i (hvl ▸ hi) hi, hext i hi, hcell i (hcl ▸ hi) (hvl ▸ hi) hi]
    simp
  have final : (addBuiltin (baseCols states vs) pi mem >>= fun cols =>
      TraceTable.newFromCols cols) = .ok (TraceTable.ofRows rows (mainWidth pi)) := by
    unfold addBuiltin
    split at h
    next range hr =>
      simp only [Outcome.bind_eq_ok, Outcome.pure_eq, Outcome.ok.injEq] at h
      obtain ⟨values, hv, rfl⟩ := h
      obtain ⟨c, hc0, hcn⟩ := hbne
      have : addRcBuiltinColumns (baseCols states vs) range mem =
          .ok (baseCols states vs ++ rcCols values states.length) := by
        unfold addRcBuiltinColumns
        rw [hv, index_ok hc0]
        simp [rcCols, hcn]
      simp only [hr, this, Outcome.bind_ok]
      refine hfin _ (rcCells values) (rcCols_length values _).2
        (fun i hi => rcCols_row values _ i hi) ?_
        (by rw [(rcCols_length values _).1]; simp [mainWidth, hr])
      rw [List.mapIdx_mapIdx]
      congr 1
      funext i c
      simp
    next hr =>
      simp only [Outcome.pure_eq, Outcome.ok.injEq] at h
      simp only [hr, Outcome.bind_ok]
      have := hfin [] (fun _ => []) (by simp) (fun i _ => rfl) (by rw [← h])
        (by simp [mainWidth, hr])
      rwa [List.append_nil] at this
  simpa only [baseCols] using final

theorem rows_of_exec {pi : PublicInputs} {t : TraceTable FE}
    (h : buildCairoExecutionTrace states mem pi = .ok t) :
    ∃ rows, ExecTrace.buildCairoExecutionTrace states mem pi = .ok rows := by
  unfold buildCairoExecutionTrace at h
  simp only [Outcome.bind_eq_ok, unwrapErr_eq_ok, List.unzip_eq_map] at h
  obtain ⟨fos, hfo, ⟨dstAddrs, dsts⟩, hd, ⟨op0Addrs, op0s⟩, h0, ⟨op1Addrs, op1s⟩, h1, res, hres,
    ⟨op0s', dsts', res'⟩, hu, reprs, hrep, insts, hi, t0, ht0, flagCols, hfc, offCols, hoc, sel, hsel, h⟩ := h
  have hne : states.length ≠ 0 := by
    intro h0
    unfold setAt steps at hsel
    simp [h0] at hsel
  simp only [computeDsts, computeOp0s, computeOp1s, computeRess, Outcome.bind_eq_ok,
    Outcome.pure_eq, Outcome.ok.injEq, List.unzip_eq_map, Prod.mk.injEq] at hd h0 h1 hres
  obtain ⟨ds, hd, rfl, rfl⟩ := hd
  obtain ⟨as, h0, rfl, rfl⟩ := h0
  obtain ⟨bs, h1, rfl, rfl⟩ := h1
  obtain ⟨lfo, hfo⟩ := mapOutcome_mem hfo
  obtain ⟨ld, hd⟩ := mapOutcome_mem hd
  obtain ⟨l0, h0⟩ := mapOutcome_mem h0
  obtain ⟨l1, h1⟩ := mapOutcome_mem h1
  obtain ⟨lr, hres⟩ := mapOutcome_mem hres
  obtain ⟨lrep, hrep⟩ := mapOutcome_mem hrep
  obtain ⟨li, hi⟩ := mapOutcome_mem hi
  simp only [List.length_zip, List.length_map] at ld l0 l1 lr lrep li
  simp only [lfo, Nat.min_self] at ld l0
  simp only [lfo, l0, Nat.min_self] at l1
  simp only [lfo, l0, l1, ld, Nat.min_self] at lr
  unfold updateAll at hu
  have hul := updateLoop_eq (fos.map Prod.fst) [] [] states [] [] [] (as.map Prod.snd)
    (ds.map Prod.snd) res rfl rfl rfl rfl (by simp [lfo]) (by simp [l0, lfo]) (by simp [ld, lfo])
    (by simp [lr, lfo])
  simp only [List.nil_append, List.length_nil] at hul
  rw [hul] at hu
  simp only [Outcome.bind_eq_ok] at hu
  obtain ⟨us, hu, -⟩ := hu
  obtain ⟨lu, hu⟩ := mapOutcome_mem hu
  simp only [List.length_zip, List.length_map, lfo, l0, ld, lr, Nat.min_self] at lu
  obtain ⟨cells, hcells⟩ := mapOutcome_exists (f := stepCells mem) (l := states) fun s hs => by
    obtain ⟨i, hlt, rfl⟩ := List.mem_iff_getElem.1 hs
    have a1 := hfo i hlt (lfo ▸ hlt)
    have a2 := hd i (by simp; omega) (by omega)
    have a3 := h0 i (by simp; omega) (by omega)
    have a4 := h1 i (by simp; omega) (by omega)
    have a5 := hres i (by simp; omega) (by omega)
    have a6 := hu i (by simp; omega) (by omega)
    have a7 := hrep i (by simp; omega) (by omega)
    have a8 := hi i hlt (by omega)
    simp only [List.getElem_zip, List.getElem_map, unwrapErr_eq_ok] at a2 a3 a4 a5 a6 a7
    exact ⟨_, stepCells_iff.2 ⟨⟨_, _, _, _, _, _, _, _, _, _, _, _, _, _⟩,
      ⟨a1, a2, a3, a4, a5, a6, a7, a8⟩, rfl⟩⟩
  unfold ExecTrace.buildCairoExecutionTrace
  rw [hcells]
  simp only [Outcome.bind_ok, if_neg hne]
  obtain ⟨cols, hcols, h⟩ := h
  cases hr : pi.memorySegments.get? .rangeCheck with
  | none => exact ⟨_, rfl⟩
  | some range =>
    simp only [addBuiltin, hr, addRcBuiltinColumns, Outcome.bind_eq_ok] at hcols
    obtain ⟨values, hv, -⟩ := hcols
    simp only [hv]
    exact ⟨_, rfl⟩

/-- The two models of the execution trace agree. -/
theorem exec_eq (pi : PublicInputs) : buildCairoExecutionTrace states mem pi =
    ExecTrace.buildCairoExecutionTrace states mem pi >>= fun rows =>
      .ok (TraceTable.ofRows rows (mainWidth pi)) := by
  refine run_ext (fun t h => ?_) fun t h => ?_
  · obtain ⟨rows, hr⟩ := rows_of_exec h
    exact ⟨_, by rw [hr]; rfl⟩
  · simp only [Outcome.bind_eq_ok, Outcome.ok.injEq] at h
    obtain ⟨rows, hr, rfl⟩ := h
    exact exec_of_rows hr

/-! ## Appending rows -/

open TraceTable in
theorem getCols_ofRows (R : List (List FE)) (w : Nat) (hw : 0 < w) (hR : ∀ r ∈ R, r.length = w)
    (cols : List Nat) (hc : ∀ c ∈ cols, c < w) :
    (ofRows R w).getCols cols = .ok ⟨ExecTrace.getCols R cols, cols.length⟩ := by
  unfold TraceTable.getCols
  rw [nRows_ofRows R w hw hR, mapOutcome_range (bs := R.map fun r => cols.map fun c => r.getD c 0)
    (by simp) fun i hi => ?_]
  · simp [ExecTrace.getCols, List.flatMap]
  · have hi' : i < R.length := by simpa using hi
    refine mapOutcome_of_getElem (by simp) fun j h1 h2 => ?_
    have hj := hc _ (List.getElem_mem h1)
    have := get_ofRows (ε := Empty) R w hR i cols[j] hi' hj
    unfold TraceTable.get at this
    rw [this]
    have hl := hR _ (List.getElem_mem hi')
    simp only [List.getElem_map]
    exact index_ok (by rw [List.getElem?_eq_getElem (by omega), List.getD_eq_getElem _ _ (by omega)])

open TraceTable in
theorem lastRow_ofRows (R : List (List FE)) (w : Nat) (hw : 0 < w) (hR : ∀ r ∈ R, r.length = w) :
    (ofRows R w).lastRow = ExecTrace.lastRow R := by
  unfold TraceTable.lastRow ExecTrace.lastRow
  rw [nRows_ofRows R w hw hR, List.getLast?_eq_getElem?]
  by_cases h : R.length = 0
  · rw [if_pos h, List.getElem?_eq_none (by omega)]; rfl
  · rw [if_neg h, getRow_ofRows R w hR _ (by omega), List.getElem?_eq_getElem (by omega)]; rfl

theorem ofRows_append (R S : List (List FE)) (w : Nat) :
    ({ TraceTable.ofRows R w with table := (TraceTable.ofRows R w).table ++ S.flatten } :
      TraceTable FE) = TraceTable.ofRows (R ++ S) w := by
  simp [TraceTable.ofRows]

theorem missingLoop_eq : ∀ (l : List Nat) (acc : List FE), missingLoop l acc =
    acc ++ (missingValues l).map (fun n : Nat => (n : FE))
  | [], acc => by simp [missingLoop, missingValues]
  | [a], acc => by simp [missingLoop, missingValues]
  | a :: b :: t, acc => by
    rw [missingLoop, missingLoop_eq (b :: t), missingValues]
    split <;> simp

theorem getRcHoles_eq (R : List (List FE)) (w : Nat) (hw : 0 < w) (hR : ∀ r ∈ R, r.length = w)
    (cols : List Nat) (hc : ∀ c ∈ cols, c < w) :
    getRcHoles (TraceTable.ofRows R w) cols = ExecTrace.getRcHoles (ExecTrace.getCols R cols) := by
  unfold getRcHoles ExecTrace.getRcHoles
  rw [getCols_ofRows R w hw hR cols hc]
  simp only [Outcome.bind_ok, missingLoop_eq, List.nil_append, List.length_map, List.map_append,
    List.map_replicate, Outcome.pure_eq]
  generalize sortNat _ = sorted
  cases sorted with
  | nil => rfl
  | cons a t =>
    rw [List.getLast?_cons]
    rfl

theorem rcHoles_three {l : List FE} {holes : List FE} {a b : Nat}
    (h : ExecTrace.getRcHoles l = .ok (holes, a, b)) : ∃ k, holes.length = 3 * k := by
  unfold ExecTrace.getRcHoles at h
  simp only at h
  split at h
  · simp only [Outcome.ok.injEq, Prod.mk.injEq] at h
    obtain ⟨rfl, -, -⟩ := h
    refine ⟨((missingValues (sortNat (l.map fun x => x.val % 2 ^ 16))).length + 2) / 3, ?_⟩
    simp only [List.length_map, List.length_append, List.length_replicate]
    omega
  · cases h

theorem fillRcLoop_eq (w : Nat) : ∀ (k j : Nat) (pre hs table : List FE), pre.length = 3 * j →
    hs.length = 3 * k →
    fillRcLoop (List.replicate OFF_DST 0) (List.replicate (w - OFF_OP1 - 1) 0) (pre ++ hs)
      ((List.range' j k).map (3 * ·)) table = .ok (table ++ (rcHoleRows w hs).flatten) := by
  intro k
  induction k with
  | zero =>
    intro j pre hs table _ h
    have : hs = [] := List.length_eq_zero_iff.1 (by omega)
    subst this
    simp [fillRcLoop, rcHoleRows]
  | succ k ih =>
    intro j pre hs table hp h
    obtain _ | ⟨a, _ | ⟨b, _ | ⟨c, hs⟩⟩⟩ := hs
    · simp at h
    · simp at h; omega
    · simp at h; omega
    rw [List.range'_succ, List.map_cons, fillRcLoop]
    have : (subslice (pre ++ a :: b :: c :: hs) (3 * j) (3 * j + 3) : Run _) = .ok [a, b, c] := by
      unfold subslice
      rw [if_pos (by simp; omega), ← hp]
      simp
    rw [this]
    simp only [Outcome.bind_ok]
    have hrec := ih (j + 1) (pre ++ [a, b, c]) hs (table ++ List.replicate OFF_DST 0 ++ [a, b, c] ++
      List.replicate (w - OFF_OP1 - 1) 0) (by simp [hp]; ring) (by simp at h; omega)
    rw [List.append_assoc, List.cons_append, List.cons_append, List.cons_append,
      List.nil_append] at hrec
    rw [hrec, rcHoleRows]
    simp

theorem fillRcHoles_eq (R : List (List FE)) (w k : Nat) (hw : 34 ≤ w) (holes : List FE)
    (h : holes.length = 3 * k) : fillRcHoles (TraceTable.ofRows R w) holes =
      .ok (TraceTable.ofRows (R ++ rcHoleRows w holes) w) := by
  unfold fillRcHoles
  have hlt : ¬ (TraceTable.ofRows R w).nCols < OFF_OP1 + 1 := by
    simp [TraceTable.ofRows, OFF_OP1]; omega
  rw [if_neg hlt, show (holes.length + 2) / 3 = k by omega, List.range_eq_range']
  have := fillRcLoop_eq w k 0 [] holes (TraceTable.ofRows R w).table rfl h
  rw [List.nil_append] at this
  change (fillRcLoop _ (List.replicate (w - OFF_OP1 - 1) 0) _ _ _ >>= _) = _
  rw [this]
  simp [TraceTable.ofRows]

theorem holesLoop_eq (codelen : Nat) (addr : FE) : ∀ (n : Nat) (hole : FE) (acc : List FE),
    addr.val - hole.val = n →
    holesLoop codelen addr hole acc = acc ++ holesBetween codelen hole addr := by
  intro n
  induction n with
  | zero =>
    intro hole acc h
    rw [holesLoop, dif_neg (by omega)]
    simp [holesBetween, h]
  | succ n ih =>
    intro hole acc h
    have hlt : hole.val < addr.val := by omega
    have hs := val_succ hlt
    rw [holesLoop, dif_pos hlt, ih _ _ (by rw [hs]; omega)]
    unfold holesBetween
    rw [h, hs, show addr.val - (hole.val + 1) = n by omega, List.range_succ_eq_map, List.map_cons,
      List.map_map, List.filter_cons]
    have : ((List.range n).map ((fun k : Nat => hole + (k : FE)) ∘ Nat.succ)) =
        (List.range n).map fun k : Nat => hole + 1 + (k : FE) := by
      refine List.map_congr_left fun k _ => ?_
      simp only [Function.comp_def, Nat.succ_eq_add_one, Nat.cast_add, Nat.cast_one]
      ring
    rw [this]
    simp only [Nat.cast_zero, add_zero, decide_eq_true_eq]
    split <;> simp

theorem memoryHolesLoop_eq (codelen : Nat) : ∀ (l : List FE) (prev : FE) (acc : List FE),
    memoryHolesLoop codelen l prev acc = acc ++ memoryHolesFrom codelen prev l
  | [], prev, acc => by simp [memoryHolesLoop, memoryHolesFrom]
  | addr :: t, prev, acc => by
    rw [memoryHolesLoop, memoryHolesLoop_eq codelen t, memoryHolesFrom]
    split
    · rw [holesLoop_eq codelen addr _ _ _ rfl, List.append_assoc]
    · simp

theorem getMemoryHoles_eq (l : List FE) (codelen : Nat) :
    getMemoryHoles l codelen = ExecTrace.getMemoryHoles l codelen := by
  unfold getMemoryHoles ExecTrace.getMemoryHoles
  cases l with
  | nil => rfl
  | cons a t =>
    rw [index_ok (a := a) rfl]
    simp [memoryHolesLoop_eq]

theorem fillRow_eq : ∀ (cols : List Nat) (row holes : List FE), (∀ c ∈ cols, c < row.length) →
    fillRow cols row holes =
      .ok ((cols.zip holes).foldl (fun r ch => r.set ch.1 ch.2) row, holes.drop cols.length)
  | [], row, holes, _ => by simp [fillRow]
  | c :: cols, row, [], h => by
    rw [fillRow, fillRow_eq cols row [] fun c hc => h c (by simp [hc])]
    simp
  | c :: cols, row, x :: holes, h => by
    have : setAt row c x = .ok (row.set c x) := by unfold setAt; rw [if_pos (h c (by simp))]
    rw [fillRow, this, Outcome.bind_ok, fillRow_eq cols _ holes fun c hc => by
      simpa using h c (by simp [hc])]
    simp

theorem fillMemoryLoop_eq (last : List FE) (hl : 34 ≤ last.length) : ∀ (k : Nat)
    (holes table : List FE), k = (holes.length + 3) / 4 →
    fillMemoryLoop last k holes table = .ok (table ++ (memoryHoleRows last holes).flatten) := by
  intro k
  have hrow : ∀ holes, fillRow ADDR_COLUMNS last holes = .ok (holeRow last holes, holes.drop 4) :=
    fun holes => fillRow_eq _ _ _ (by
      intro c hc
      simp only [ADDR_COLUMNS, List.mem_cons, List.not_mem_nil, or_false, FRAME_PC, FRAME_DST_ADDR,
        FRAME_OP0_ADDR, FRAME_OP1_ADDR] at hc
      omega)
  induction k with
  | zero =>
    intro holes table h
    have : holes = [] := List.length_eq_zero_iff.1 (by omega)
    subst this
    simp [fillMemoryLoop, memoryHoleRows]
  | succ k ih =>
    intro holes table h
    rw [fillMemoryLoop, hrow, Outcome.bind_ok]
    simp only
    rw [ih _ _ (by simp; omega)]
    obtain _ | ⟨a, _ | ⟨b, _ | ⟨c, _ | ⟨d, t⟩⟩⟩⟩ := holes
    · simp at h
    · simp [memoryHoleRows]
    · simp [memoryHoleRows]
    · simp [memoryHoleRows]
    · simp only [List.drop_succ_cons, List.drop_zero, memoryHoleRows, List.flatten_cons,
        List.append_assoc]
      rfl

theorem fillMemoryHoles_eq (R : List (List FE)) (w : Nat) (hw : 34 ≤ w)
    (hR : ∀ r ∈ R, r.length = w) (holes : List FE) :
    fillMemoryHoles (TraceTable.ofRows R w) holes = ExecTrace.lastRow R >>= fun last =>
      .ok (TraceTable.ofRows (R ++ memoryHoleRows last holes) w) := by
  unfold fillMemoryHoles
  rw [lastRow_ofRows R w (by omega) hR]
  unfold ExecTrace.lastRow
  cases hl : R.getLast? with
  | none => rfl
  | some last =>
    have := hR last (List.mem_of_getLast? hl)
    simp only [Outcome.ofOptionUnwrap, Outcome.bind_ok]
    rw [fillMemoryLoop_eq last (by omega) _ _ _ (by simp [ADDR_COLUMNS])]
    simp [TraceTable.ofRows]

theorem zeroColumns_eq : ∀ (cols : List Nat) (row : List FE), (∀ c ∈ cols, c < row.length) →
    zeroColumns cols row = .ok (zeroedRow row cols)
  | [], row, _ => rfl
  | c :: cols, row, h => by
    have : setAt row c (0 : FE) = .ok (row.set c 0) := by unfold setAt; rw [if_pos (h c (by simp))]
    rw [zeroColumns, this, Outcome.bind_ok, zeroColumns_eq cols _ fun c hc => by
      simpa using h c (by simp [hc])]
    rfl

theorem addDummy_eq (R : List (List FE)) (w : Nat) (hw : 34 ≤ w) (hR : ∀ r ∈ R, r.length = w)
    (n : Nat) : addPubMemoryDummyAccesses (TraceTable.ofRows R w) n =
      ExecTrace.lastRow R >>= fun last => .ok (TraceTable.ofRows
        (R ++ List.replicate ((n >>> 2) + 1) (zeroedRow last MEMORY_COLUMNS)) w) := by
  unfold addPubMemoryDummyAccesses padWithLastRowAndZeros
  rw [lastRow_ofRows R w (by omega) hR]
  unfold ExecTrace.lastRow
  cases hl : R.getLast? with
  | none => rfl
  | some last =>
    have := hR last (List.mem_of_getLast? hl)
    simp only [Outcome.ofOptionUnwrap, Outcome.bind_ok]
    rw [zeroColumns_eq _ _ (by
      intro c hc
      simp only [MEMORY_COLUMNS, List.mem_cons, List.not_mem_nil, or_false, FRAME_PC,
        FRAME_DST_ADDR, FRAME_OP0_ADDR, FRAME_OP1_ADDR, FRAME_INST, FRAME_DST, FRAME_OP0,
        FRAME_OP1] at hc
      omega)]
    simp [TraceTable.ofRows]

theorem pad_eq (R : List (List FE)) (w : Nat) (hw : 34 ≤ w) (hR : ∀ r ∈ R, r.length = w)
    (n : Nat) : padWithLastRow (TraceTable.ofRows R w) n =
      ExecTrace.lastRow R >>= fun last => .ok (TraceTable.ofRows (R ++ List.replicate n last) w) := by
  unfold padWithLastRow
  rw [lastRow_ofRows R w (by omega) hR]
  congr 1
  funext last
  simp [TraceTable.ofRows]

/-- The two models of the main trace agree. -/
theorem main_eq (pi : PublicInputs) : buildMainTrace states mem pi =
    ExecTrace.buildMainTrace states mem pi >>= fun (rows, pi') =>
      .ok (TraceTable.ofRows rows (mainWidth pi), pi') := by
  unfold buildMainTrace ExecTrace.buildMainTrace
  rw [exec_eq]
  cases hx : ExecTrace.buildCairoExecutionTrace states mem pi with
  | err e => exact e.elim
  | panic => rfl
  | ok exec =>
    obtain ⟨-, hne, hw⟩ := exec_width hx
    have hge := mainWidth_ge pi
    have hcols : exec.head?.elim 0 List.length = mainWidth pi := by
      obtain ⟨r, t, rfl⟩ := List.exists_cons_of_ne_nil hne
      simpa using hw r (by simp)
    simp only [Outcome.bind_ok, hcols]
    have hlast : ∀ {l : List (List FE)} {r : List FE}, ExecTrace.lastRow l = .ok r → r ∈ l := by
      intro l r h
      refine List.mem_of_getLast? ?_
      unfold ExecTrace.lastRow Outcome.ofOptionUnwrap at h
      cases h' : l.getLast? with
      | none => simp [h'] at h
      | some x => simp [h'] at h; rw [h]
    rw [getCols_ofRows exec _ (by omega) hw _ (by
        intro c hc
        simp only [List.mem_cons, List.not_mem_nil, or_false, FRAME_PC, FRAME_DST_ADDR,
          FRAME_OP0_ADDR, FRAME_OP1_ADDR] at hc
        omega),
      getRcHoles_eq exec _ (by omega) hw _ (by
        intro c hc
        simp only [List.mem_cons, List.not_mem_nil, or_false, OFF_DST, OFF_OP0, OFF_OP1] at hc
        omega)]
    simp only [Outcome.bind_ok]
    cases hrc : ExecTrace.getRcHoles (ExecTrace.getCols exec [OFF_DST, OFF_OP0, OFF_OP1]) with
    | err e => exact e.elim
    | panic => rfl
    | ok x =>
      obtain ⟨rcHoles, lo, hi⟩ := x
      obtain ⟨k, hk⟩ := rcHoles_three hrc
      simp only [Outcome.bind_ok]
      rw [fillRcHoles_eq exec _ k hge rcHoles hk]
      simp only [Outcome.bind_ok, getMemoryHoles_eq]
      have h1 : ∀ r ∈ exec ++ rcHoleRows (mainWidth pi) rcHoles, r.length = mainWidth pi := by
        intro r hr
        rcases List.mem_append.1 hr with hr | hr
        · exact hw r hr
        · exact rcHoleRows_length (by omega) r hr
      change (ExecTrace.getMemoryHoles ((ExecTrace.getCols exec ADDR_COLUMNS).insertionSort
        fun a b => a.val ≤ b.val) _ >>= _) = _
      simp only [bind_assoc]
      cases hmh : ExecTrace.getMemoryHoles ((ExecTrace.getCols exec ADDR_COLUMNS).insertionSort
        fun a b => a.val ≤ b.val) pi.publicMemory.length with
      | err e => exact e.elim
      | panic => rfl
      | ok holes =>
        simp only [Outcome.bind_ok]
        cases hl1 : ExecTrace.lastRow (exec ++ rcHoleRows (mainWidth pi) rcHoles) with
        | err e => exact e.elim
        | panic =>
          exfalso
          unfold ExecTrace.lastRow Outcome.ofOptionUnwrap at hl1
          cases h' : (exec ++ rcHoleRows (mainWidth pi) rcHoles).getLast? with
          | none => simp [hne] at h'
          | some x => simp [h'] at hl1
        | ok last1 =>
          have hl1w := h1 _ (hlast hl1)
          have hstep : fillMemoryHolesIfAny
              (TraceTable.ofRows (exec ++ rcHoleRows (mainWidth pi) rcHoles) (mainWidth pi)) holes =
            .ok (TraceTable.ofRows (exec ++ rcHoleRows (mainWidth pi) rcHoles ++
              memoryHoleRows last1 holes) (mainWidth pi)) := by
            unfold fillMemoryHolesIfAny
            rw [fillMemoryHoles_eq _ _ hge h1, hl1]
            cases holes with
            | nil => simp [memoryHoleRows]
            | cons a t => simp
          rw [hstep]
          simp only [Outcome.bind_ok]
          have h2 : ∀ r ∈ exec ++ rcHoleRows (mainWidth pi) rcHoles ++ memoryHoleRows last1 holes,
              r.length = mainWidth pi := by
            intro r hr
            rcases List.mem_append.1 hr with hr | hr
            · exact h1 r hr
            · rw [memoryHoleRows_length r hr, hl1w]
          rw [addDummy_eq _ _ hge h2]
          simp only [bind_assoc]
          cases hl2 : ExecTrace.lastRow (exec ++ rcHoleRows (mainWidth pi) rcHoles ++
            memoryHoleRows last1 holes) with
          | err e => exact e.elim
          | panic => rfl
          | ok last2 =>
            have hl2w := h2 _ (hlast hl2)
            simp only [Outcome.bind_ok]
            have h3 : ∀ r ∈ exec ++ rcHoleRows (mainWidth pi) rcHoles ++
                memoryHoleRows last1 holes ++ List.replicate ((pi.publicMemory.length >>> 2) + 1)
                  (zeroedRow last2 MEMORY_COLUMNS), r.length = mainWidth pi := by
              intro r hr
              rcases List.mem_append.1 hr with hr | hr
              · exact h2 r hr
              · rw [List.eq_of_mem_replicate hr, zeroedRow_length, hl2w]
            rw [pad_eq _ _ hge h3, TraceTable.nRows_ofRows _ _ (by omega) h3]
            simp only [bind_assoc, Outcome.bind_ok, Outcome.pure_eq]

/-! ## The auxiliary trace -/

theorem pubMemoryLoop_eq (m : HMap FE FE) : ∀ (addrs p q s : List FE), p.length = q.length →
    s.length = addrs.length →
    pubMemoryLoop m (p ++ addrs) (List.range' p.length addrs.length) (q ++ s) =
      (mapOutcome (fun a => (Outcome.ofOptionUnwrap (m.get? a) : Run FE)) addrs) >>= fun vals =>
        .ok (q ++ vals) := by
  intro addrs
  induction addrs with
  | nil =>
    intro p q s _ h
    have : s = [] := List.length_eq_zero_iff.1 h
    subst this
    simp [pubMemoryLoop, mapOutcome]
  | cons a addrs ih =>
    intro p q s hp h
    obtain _ | ⟨x, s⟩ := s
    · simp at h
    rw [List.length_cons, List.range'_succ, pubMemoryLoop, index_mid, Outcome.bind_ok, mapOutcome]
    cases hg : m.get? a with
    | none => rfl
    | some v =>
      simp only [Outcome.ofOptionUnwrap, Outcome.bind_ok]
      rw [hp, setAt_mid, Outcome.bind_ok]
      have := ih (p ++ [a]) (q ++ [v]) s (by simp [hp]) (by simpa using h)
      simp only [List.length_append, List.length_cons, List.length_nil, Nat.zero_add,
        List.append_assoc, List.cons_append, List.nil_append, hp] at this
      rw [this]
      simp only [bind_assoc, Outcome.bind_ok, Outcome.pure_eq]
      rfl

theorem addPubMemory_eq (a v : List FE) (pi : PublicInputs) (h : v.length = a.length) :
    addPubMemory a v pi = ExecTrace.addPubMemory a v pi := by
  unfold addPubMemory ExecTrace.addPubMemory
  split
  · simp_all
  next hlt =>
  simp only
  rw [if_neg hlt]
  cases ha : getPubMemoryAddrs (pi.memorySegments.get? .output) pi.publicMemory.length with
  | err e => exact e.elim
  | panic => rfl
  | ok addrs =>
    have hl := getPubMemoryAddrs_length ha
    simp only [Outcome.bind_ok]
    set n := a.length - pi.publicMemory.length with hn
    have hpl : (a.take n).length = n := by simp; omega
    have := pubMemoryLoop_eq pi.publicMemory addrs (a.take n) (v.take n) (v.drop n)
      (by simp; omega) (by simp; omega)
    rw [hpl, List.take_append_drop] at this
    rw [List.length_append, hpl, Nat.add_sub_cancel_left, this]
    simp only [bind_assoc, Outcome.bind_ok, Outcome.pure_eq]

theorem memoryScan_eq (z alpha : FE) : ∀ (l : List ((FE × FE) × FE)) (acc : FE),
    memoryScan z alpha acc l =
      runningProducts acc (l.map fun x => (z - (x.1.1 + alpha * x.1.2)) * x.2)
  | [], acc => rfl
  | ((a, v), d) :: l, acc => by
    rw [memoryScan]
    simp only [List.map_cons, runningProducts, memoryScan_eq z alpha l]

theorem rangeCheckScan_eq (z : FE) : ∀ (l : List (FE × FE)) (acc : FE),
    rangeCheckScan z acc l = runningProducts acc (l.map fun x => (z - x.1) * x.2)
  | [], acc => rfl
  | (a, d) :: l, acc => by
    rw [rangeCheckScan]
    simp only [List.map_cons, runningProducts, rangeCheckScan_eq z l, mul_assoc]

theorem memoryPermutationColumn_eq (o s : List (FE × FE)) (ao vo : List FE) (ho : ao.zip vo = o)
    (ch : RAPChallenges FE) :
    memoryPermutationColumn ao vo s.unzip.1 s.unzip.2 ch =
      ExecTrace.memoryPermutationColumn o s ch := by
  unfold memoryPermutationColumn ExecTrace.memoryPermutationColumn
  have hz : s.unzip.1.zip s.unzip.2 = s := List.zip_unzip s
  rw [hz, ho]
  simp only [memoryScan_eq]

theorem rangeCheckPermutationColumn_eq (o s : List FE) (ch : RAPChallenges FE) :
    rangeCheckPermutationColumn o s ch = ExecTrace.rangeCheckPermutationColumn o s ch := by
  unfold rangeCheckPermutationColumn ExecTrace.rangeCheckPermutationColumn
  simp only [rangeCheckScan_eq]

/-- The cells of one row of the auxiliary trace. -/
def auxCells (offs : List FE) (sorted : List (FE × FE)) (pcol rcol : List FE) (i : Nat) : List FE :=
  (List.range 3).map (fun k => offs.getD (3 * i + k) 0)
      ++ (List.range 4).map (fun k => (sorted.getD (4 * i + k) (0, 0)).1)
      ++ (List.range 4).map (fun k => (sorted.getD (4 * i + k) (0, 0)).2)
      ++ (List.range 4).map (fun k => pcol.getD (4 * i + k) 0)
      ++ (List.range 3).map (fun k => rcol.getD (3 * i + k) 0)

theorem auxPushes_eq (offs : List FE) (sorted : List (FE × FE)) (pcol rcol : List FE) (n i : Nat)
    (h1 : offs.length = 3 * n) (h2 : sorted.length = 4 * n) (h3 : pcol.length = 4 * n)
    (h4 : rcol.length = 3 * n) (hi : i < n) :
    mapOutcome id (auxPushes offs sorted.unzip.1 sorted.unzip.2 pcol rcol i) =
      .ok (auxCells offs sorted pcol rcol i) := by
  have e : ∀ (l : List FE) (k : Nat), k < l.length → (index l k : Run FE) = .ok (l.getD k 0) :=
    fun l k hk => index_ok (by rw [List.getElem?_eq_getElem hk, List.getD_eq_getElem _ _ hk])
  have e1 : ∀ k, k < sorted.length → (index sorted.unzip.1 k : Run FE) =
      .ok (sorted.getD k (0, 0)).1 := fun k hk => index_ok (by
    rw [List.getD_eq_getElem _ _ hk]; simp [List.unzip_eq_map, hk])
  have e2 : ∀ k, k < sorted.length → (index sorted.unzip.2 k : Run FE) =
      .ok (sorted.getD k (0, 0)).2 := fun k hk => index_ok (by
    rw [List.getD_eq_getElem _ _ hk]; simp [List.unzip_eq_map, hk])
  unfold auxPushes
  rw [e offs (3 * i) (by omega), e offs (3 * i + 1) (by omega), e offs (3 * i + 2) (by omega),
    e1 (4 * i) (by omega), e1 (4 * i + 1) (by omega), e1 (4 * i + 2) (by omega),
    e1 (4 * i + 3) (by omega), e2 (4 * i) (by omega), e2 (4 * i + 1) (by omega),
    e2 (4 * i + 2) (by omega), e2 (4 * i + 3) (by omega),
    e pcol (4 * i) (by omega), e pcol (4 * i + 1) (by omega), e pcol (4 * i + 2) (by omega),
    e pcol (4 * i + 3) (by omega), e rcol (3 * i) (by omega), e rcol (3 * i + 1) (by omega),
    e rcol (3 * i + 2) (by omega)]
  rfl

theorem auxLoop_eq (offs : List FE) (sorted : List (FE × FE)) (pcol rcol : List FE) (n : Nat)
    (h1 : offs.length = 3 * n) (h2 : sorted.length = 4 * n) (h3 : pcol.length = 4 * n)
    (h4 : rcol.length = 3 * n) : ∀ (l : List Nat) (table : List FE), (∀ i ∈ l, i < n) →
    auxLoop offs sorted.unzip.1 sorted.unzip.2 pcol rcol l table =
      .ok (table ++ (l.map (auxCells offs sorted pcol rcol)).flatten)
  | [], table, _ => by simp [auxLoop]
  | i :: l, table, h => by
    rw [auxLoop, auxPushes_eq offs sorted pcol rcol n i h1 h2 h3 h4 (h i (by simp)),
      Outcome.bind_ok, auxLoop_eq offs sorted pcol rcol n h1 h2 h3 h4 l _ fun j hj =>
        h j (by simp [hj])]
    simp

/-- The two models of the auxiliary trace agree. -/
theorem aux_eq (pi : PublicInputs) (R : List (List FE)) (w : Nat) (hw : 34 ≤ w)
    (hR : ∀ r ∈ R, r.length = w) (ch : RAPChallenges FE) :
    buildAuxiliaryTrace pi (TraceTable.ofRows R w) ch =
      ExecTrace.buildAuxiliaryTrace pi R ch >>= fun aux => .ok (TraceTable.ofRows aux 18) := by
  unfold buildAuxiliaryTrace ExecTrace.buildAuxiliaryTrace
  rw [getCols_ofRows R w (by omega) hR _ (by
      intro c hc
      simp only [List.mem_cons, List.not_mem_nil, or_false, FRAME_PC, FRAME_DST_ADDR,
        FRAME_OP0_ADDR, FRAME_OP1_ADDR] at hc
      omega),
    getCols_ofRows R w (by omega) hR _ (by
      intro c hc
      simp only [List.mem_cons, List.not_mem_nil, or_false, FRAME_INST, FRAME_DST,
        FRAME_OP0, FRAME_OP1] at hc
      omega),
    getCols_ofRows R w (by omega) hR _ (by
      intro c hc
      simp only [List.mem_cons, List.not_mem_nil, or_false, OFF_DST, OFF_OP0, OFF_OP1] at hc
      omega), TraceTable.nRows_ofRows R w (by omega) hR]
  simp only [Outcome.bind_ok, bind_assoc]
  have ha := length_getCols R ADDR_COLUMNS
  have hv := length_getCols R VALUE_COLUMNS
  have ho := length_getCols R [OFF_DST, OFF_OP0, OFF_OP1]
  change (addPubMemory (ExecTrace.getCols R ADDR_COLUMNS) (ExecTrace.getCols R VALUE_COLUMNS) pi >>=
    _) = _
  rw [addPubMemory_eq _ _ _ (by rw [ha, hv]; rfl)]
  cases hp : ExecTrace.addPubMemory (ExecTrace.getCols R ADDR_COLUMNS)
    (ExecTrace.getCols R VALUE_COLUMNS) pi with
  | err e => exact e.elim
  | panic => rfl
  | ok x =>
    obtain ⟨addrs, vals⟩ := x
    obtain ⟨la, lv⟩ := addPubMemory_length (by rw [ha, hv]; rfl) hp
    simp only [Outcome.bind_ok, sortColumns]
    have hz : (addrs.zip vals).length = 4 * R.length := by
      rw [List.length_zip, la, lv, ha]
      simp [ADDR_COLUMNS, Nat.mul_comm]
    have hs : (sortByAddress (addrs.zip vals)).length = 4 * R.length := by
      rw [(sortByAddress_perm _).length_eq, hz]
    rw [memoryPermutationColumn_eq _ _ _ _ rfl, rangeCheckPermutationColumn_eq]
    change (ExecTrace.memoryPermutationColumn ((ExecTrace.getCols R ADDR_COLUMNS).zip
      (ExecTrace.getCols R VALUE_COLUMNS)) _ ch >>= _) = _
    cases hm : ExecTrace.memoryPermutationColumn ((ExecTrace.getCols R ADDR_COLUMNS).zip
      (ExecTrace.getCols R VALUE_COLUMNS)) (sortByAddress (addrs.zip vals)) ch with
    | err e => exact e.elim
    | panic => rfl
    | ok pcol =>
      simp only [Outcome.bind_ok]
      have hso := length_sortedOffsets R
      unfold sortedOffsets at hso
      generalize hgs : (sortNat ((ExecTrace.getCols R [OFF_DST, OFF_OP0, OFF_OP1]).map
        fun x => x.val % 2 ^ 16)).map (fun n : Nat => (n : FE)) = offs at hso ⊢
      cases hr : ExecTrace.rangeCheckPermutationColumn
        (ExecTrace.getCols R [OFF_DST, OFF_OP0, OFF_OP1]) offs ch with
      | err e => exact e.elim
      | panic => rfl
      | ok rcol =>
        simp only [Outcome.bind_ok]
        have hpl : pcol.length = 4 * R.length := by
          rw [(memoryPermutationColumn_ok hm).2, runningProducts_length]
          have ha' : (ExecTrace.getCols R ADDR_COLUMNS).length = 4 * R.length := ha
          have hv' : (ExecTrace.getCols R VALUE_COLUMNS).length = 4 * R.length := hv
          simp [hs, ha', hv']
        have hrl : rcol.length = 3 * R.length := by
          rw [(rangeCheckPermutationColumn_ok hr).2, runningProducts_length]
          simp [hso, ho]
        rw [auxLoop_eq offs _ pcol rcol R.length hso hs hpl hrl _ _ fun i hi => List.mem_range.1 hi]
        rfl

end Verif.MainTable
