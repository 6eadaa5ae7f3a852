import Verif.Lemmas.ForgeTrace
import Verif.Lemmas.Permutation
import Verif.Lemmas.HonestSat
import Verif.Props.Validate
import Verif.Props.CairoAir

/-!
# What a trace accepted by the Cairo AIR guarantees (C26–C32)

`Spec.Accepted pi opts rows ch` says that a rectangular trace satisfies the AIR for some public inputs
and challenges. The properties C26, C28, C29, C30, C31 and the part of C32 about `fp` are false of the
code; each has a refutation and a `_partial` theorem with what does hold.
-/

namespace Verif.Props
open Verif.Spec Verif.CairoAir
open Verif.ExecTrace (foldl_factor)

variable {pi : PublicInputs} {opts : ProofOptions} {rows : List (List FE)} {ch : RAPChallenges FE}

/-- The trace of the run of `simple_program` is accepted. -/
theorem example_accepted : Accepted Examples.main0.2 ⟨4, 3, 3, 1⟩ exampleRows Examples.ch0 := by
  have hl : exampleRows.length = 8 := by decide +kernel
  have hrect : ∀ r ∈ exampleRows, r.length = 52 := by decide +kernel
  have hrc : hasRcBuiltin Examples.main0.2 = false := by decide +kernel
  have hD := CairoAir.declared 8 Examples.main0.2 ⟨4, 3, 3, 1⟩ Examples.ch0 (by decide) (by decide +kernel)
  refine ⟨by rw [hrc]; exact hrect, by rw [hl]; decide +kernel, ?_⟩
  rw [hl, hrc]
  have := (C35_validate_table (CairoAir.air 8 Examples.main0.2 ⟨4, 3, 3, 1⟩) exampleRows 52 hrect
    Examples.ch0 (by rw [hl]; rw [hrc] at hD; exact hD)).1 (by decide +kernel)
  exact this

/-- The first instruction of `simple_program`. -/
theorem exampleWord_legal : LegalWord 0x480680017fff8000 := by unfold LegalWord; decide +kernel

/-! ## C26 -/

/-- What C26 keeps: a row whose selector is not zero is followed by the successor state of the Cairo
machine, in any memory that agrees with the four accesses of the row, provided the offsets are 16-bit
values and the instruction word has a defined meaning. Missing: the AIR does not force the selector of
the executed steps to be non-zero (`C26_selector_not_enforced`). -/
theorem C26_selected_steps_partial (h : Accepted pi opts rows ch) (m : FE → FE) (i : Nat)
    (hi : i + 1 < rows.length) (hsel : cell rows i FRAME_SELECTOR ≠ 0)
    (hoff : ∀ k < 3, (offset rows (3 * i + k)).val < 2 ^ 16)
    (hmem : ∀ k < 4, m (access rows (4 * i + k)).1 = (access rows (4 * i + k)).2)
    (hlegal : LegalWord (m (regsAt rows i).pc)) : Step m (regsAt rows i) (regsAt rows (i + 1)) := by
  have hm4 : ∀ k < 4, m (cell rows i (FRAME_PC + k)) = cell rows i (FRAME_INST + k) := by
    intro k hk
    have := hmem k hk
    unfold access at this
    rwa [show (4 * i + k) / 4 = i by omega, show (4 * i + k) % 4 = k by omega] at this
  have ho3 : ∀ k < 3, (cell rows i (OFF_DST + k)).val < 2 ^ 16 := by
    intro k hk
    have := hoff k hk
    unfold offset at this
    rwa [show (3 * i + k) / 3 = i by omega, show (3 * i + k) % 3 = k by omega] at this
  have hs := ((satisfies_cells h.rect h.steps h.pos).1 h.sat).2 i (by omega)
  rw [Nat.mod_eq_of_lt hi] at hs
  refine (C25_step_soundness (hasRcBuiltin pi) ch (cell rows i) (cell rows (i + 1)) m ?_ hsel ?_ ?_).2
    hlegal
  · intro k hk
    have hlen : k < (transitionExemptions (hasRcBuiltin pi)).length := by
      cases hasRcBuiltin pi <;> simp [transitionExemptions] <;> omega
    have hx := List.getElem?_eq_getElem hlen
    refine hs k _ hx ?_
    rw [(exemptions_cases _ k _ hx).2]; split <;> omega
  · intro c hc
    simp only [List.mem_cons, List.not_mem_nil, or_false] at hc
    rcases hc with rfl | rfl | rfl
    · exact ho3 0 (by omega)
    · exact ho3 1 (by omega)
    · exact ho3 2 (by omega)
  · intro a ha
    simp only [List.mem_cons, List.not_mem_nil, or_false] at ha
    rcases ha with rfl | rfl | rfl | rfl
    · exact hm4 0 (by omega)
    · exact hm4 1 (by omega)
    · exact hm4 2 (by omega)
    · exact hm4 3 (by omega)

/-- The hypotheses of `C26_selected_steps_partial` hold for the first step of `simple_program`. -/
example : 0 + 1 < exampleRows.length ∧ cell exampleRows 0 FRAME_SELECTOR ≠ 0 ∧
    (∀ k < 3, (offset exampleRows (3 * 0 + k)).val < 2 ^ 16) ∧
    (∀ k < 4, Examples.m (access exampleRows (4 * 0 + k)).1 = (access exampleRows (4 * 0 + k)).2) ∧
    LegalWord (Examples.m (regsAt exampleRows 0).pc) := by
  have ho : (List.range 3).map (offset exampleRows) = [32768, 32767, 32769] := by decide +kernel
  have hv : ([32768, 32767, 32769] : List FE).all (fun x => decide (x.val < 65536)) = true := by
    decide +kernel
  have hm : (List.range 4).all (fun k => decide
      (Examples.m (access exampleRows k).1 = (access exampleRows k).2)) = true := by decide +kernel
  refine ⟨by decide +kernel, by decide +kernel, ?_, ?_, ?_⟩
  · intro k hk
    rw [← ho, List.all_eq_true] at hv
    rw [Nat.mul_zero, Nat.zero_add]
    simpa using hv _ (List.mem_map.2 ⟨k, List.mem_range.2 hk, rfl⟩)
  · intro k hk
    rw [Nat.mul_zero, Nat.zero_add]
    simpa using List.all_eq_true.1 hm k (List.mem_range.2 hk)
  · have : Examples.m (regsAt exampleRows 0).pc = 0x480680017fff8000 := by decide +kernel
    rw [this]; exact exampleWord_legal

/-- C26 is false: from any accepted trace, clearing the selector column allows the `ap` and `fp` columns
to be replaced by anything at all, with every other cell unchanged. The result is accepted for the
public inputs whose initial and final `ap` are read off the new column. -/
theorem C26_selector_not_enforced (h : Accepted pi opts rows ch) (ap fp : Nat → FE) :
    ∃ rows', rows'.length = rows.length ∧
      Accepted { pi with apInit := ap 0, apFinal := ap (pi.numSteps - 1) } opts rows' ch ∧
      ∀ i < rows.length, cell rows' i FRAME_AP = ap i ∧ cell rows' i FRAME_FP = fp i ∧
        cell rows' i FRAME_SELECTOR = 0 ∧
        ∀ c, c ≠ FRAME_AP → c ≠ FRAME_FP → c ≠ FRAME_SELECTOR → cell rows' i c = cell rows i c := by
  obtain ⟨⟨lo, hi, he⟩, hp⟩ := h.parts
  let f : Nat → Nat → FE := fun i c =>
    if c = 17 then ap i else if c = 18 then fp i else if c = 33 then 0 else cell rows i c
  have h34 : 34 ≤ traceColumns (hasRcBuiltin pi) := by cases hasRcBuiltin pi <;> simp [traceColumns]
  have h0 : ∀ i c, traceColumns (hasRcBuiltin pi) ≤ c → f i c = 0 := by
    intro i c hc
    simp only [f]
    rw [if_neg (by omega), if_neg (by omega), if_neg (by omega)]
    exact cell_outside h.rect i c hc
  have hP : Parts (hasRcBuiltin pi) ch rows.length f := by
    refine hp.clearSelector (fun i _ => by simp [f]) fun i _ c hc => ?_
    simp only [List.mem_cons, List.not_mem_nil, or_false, not_or] at hc
    simp [f, hc]
  have hoff : builtinOffset (hasRcBuiltin pi) ≤ 9 := by
    cases hasRcBuiltin pi <;> simp [builtinOffset, BUILTIN_OFFSET]
  have hsame : ∀ i c, 34 ≤ c → f i c = cell rows i c := by
    intro i c hc
    simp only [f]
    rw [if_neg (by omega), if_neg (by omega), if_neg (by omega)]
  have hE : Ends { pi with apInit := ap 0, apFinal := ap (pi.numSteps - 1) } ch rows.length f lo hi := by
    refine ⟨he.steps, he.rows, he.min, he.max, he.prod, ?_, ?_, ?_, ?_, ?_, ?_, ?_, ?_⟩
    · simpa [f] using he.pcInit
    · simp [f]
    · simpa [f] using he.pcFinal
    · simp [f]
    · show f _ (57 - builtinOffset (hasRcBuiltin pi)) = _
      rw [hsame _ _ (by omega)]; exact he.perm
    · show f _ (60 - builtinOffset (hasRcBuiltin pi)) = _
      rw [hsame _ _ (by omega)]; exact he.rcPerm
    · show f _ (43 - builtinOffset (hasRcBuiltin pi)) = _
      rw [hsame _ _ (by omega)]; exact he.rcFirst
    · show f _ (45 - builtinOffset (hasRcBuiltin pi)) = _
      rw [hsame _ _ (by omega)]; exact he.rcLast
  refine ⟨table rows.length (traceColumns (hasRcBuiltin pi)) f, table_length _ _ _,
    accepted_table (pi := { pi with apInit := ap 0, apFinal := ap (pi.numSteps - 1) }) h0 h.steps hE hP,
    ?_⟩
  intro i hi
  rw [cell_table hi (h0 i)]
  refine ⟨by simp [f], by simp [f], by simp [f], fun c h1 h2 h3 => ?_⟩
  simp only [f]
  rw [if_neg h1, if_neg h2, if_neg h3]

/-- C26 is false, concretely: there is an accepted trace of three claimed steps whose second state is
not the successor of the first one in any memory that contains the instruction read in the first
row. -/
theorem C26_fails : ∃ (pi : PublicInputs) (opts : ProofOptions) (rows : List (List FE))
    (ch : RAPChallenges FE), Accepted pi opts rows ch ∧ 0 + 1 < pi.numSteps ∧
      LegalWord (access rows 0).2 ∧
      ∀ m : FE → FE, m (access rows 0).1 = (access rows 0).2 →
        ¬ Step m (regsAt rows 0) (regsAt rows 1) := by
  obtain ⟨rows', hl, hacc, hc⟩ := C26_selector_not_enforced example_accepted
    (fun i => if i = 1 then 1000 else 8) (fun _ => 8)
  have hlen : exampleRows.length = 8 := by decide +kernel
  have hpc : cell rows' 0 19 = 1 := by
    rw [(hc 0 (by omega)).2.2.2 19 (by decide) (by decide) (by decide)]; decide +kernel
  have hin : cell rows' 0 23 = 0x480680017fff8000 := by
    rw [(hc 0 (by omega)).2.2.2 23 (by decide) (by decide) (by decide)]; decide +kernel
  have ha0 : access rows' 0 = (cell rows' 0 19, cell rows' 0 23) := rfl
  refine ⟨_, _, rows', _, hacc, by decide +kernel, ?_, ?_⟩
  · rw [ha0, hin]; exact exampleWord_legal
  · intro m hm hstep
    rw [ha0] at hm
    simp only [hin] at hm
    obtain ⟨-, hs⟩ := hstep
    have hpc' : (regsAt rows' 0).pc = cell rows' 0 19 := rfl
    rw [hpc', hm] at hs
    have hap := hs.ap
    have e0 : (regsAt rows' 0).ap = 8 := (hc 0 (by omega)).1
    have e1 : (regsAt rows' 1).ap = 1000 := (hc 1 (by omega)).1
    have hi : (Instr.ofWord (0x480680017fff8000 : FE).val).opcode = 4 ∧
        (Instr.ofWord (0x480680017fff8000 : FE).val).apUpdate = 2 := by decide +kernel
    unfold nextAp at hap
    rw [hi.1, hi.2, e0, e1] at hap
    norm_num at hap
    exact absurd hap (by decide +kernel)

/-- C26 is false: the claimed final `ap` of `simple_program` can be anything. -/
theorem C26_any_final_ap (x : FE) : ∃ (opts : ProofOptions) (rows : List (List FE))
    (ch : RAPChallenges FE), Accepted { Examples.main0.2 with apFinal := x } opts rows ch := by
  obtain ⟨rows', -, hacc, -⟩ := C26_selector_not_enforced example_accepted
    (fun i => if i = 0 then 8 else x) (fun _ => 8)
  refine ⟨⟨4, 3, 3, 1⟩, rows', Examples.ch0, ?_⟩
  have e : ({ Examples.main0.2 with
      apInit := (if (0 : Nat) = 0 then (8 : FE) else x),
      apFinal := (if Examples.main0.2.numSteps - 1 = 0 then (8 : FE) else x) } : PublicInputs)
      = { Examples.main0.2 with apFinal := x } := by
    have h1 : Examples.main0.2.apInit = 8 := by decide +kernel
    have h2 : Examples.main0.2.numSteps = 3 := by decide +kernel
    rw [if_pos rfl, h2, if_neg (by omega), ← h1]
  rw [← e]; exact hacc

/-! ## C27 -/

/-- C27: in every accepted trace (of at most `P / 4` rows) the sorted memory columns increase by zero or
one at every position, and never give two values to one address. -/
theorem C27_memory_read_only (h : Accepted pi opts rows ch) (hP : 4 * rows.length ≤ P) :
    (∀ k, k + 1 < 4 * rows.length →
      (sortedAccess (hasRcBuiltin pi) rows (k + 1)).1 = (sortedAccess (hasRcBuiltin pi) rows k).1 ∨
      (sortedAccess (hasRcBuiltin pi) rows (k + 1)).1
        = (sortedAccess (hasRcBuiltin pi) rows k).1 + 1) ∧
    ∀ i < 4 * rows.length, ∀ j < 4 * rows.length,
      (sortedAccess (hasRcBuiltin pi) rows i).1 = (sortedAccess (hasRcBuiltin pi) rows j).1 →
      (sortedAccess (hasRcBuiltin pi) rows i).2 = (sortedAccess (hasRcBuiltin pi) rows j).2 := by
  refine ⟨fun k hk => (sorted_step h k hk).imp_left And.left, ?_⟩
  have key : ∀ i d, i + d < 4 * rows.length →
      (sortedAccess (hasRcBuiltin pi) rows (i + d)).1 = (sortedAccess (hasRcBuiltin pi) rows i).1 →
      (sortedAccess (hasRcBuiltin pi) rows (i + d)).2 = (sortedAccess (hasRcBuiltin pi) rows i).2 := by
    intro i d hd he
    obtain ⟨e, hle, h1, h2⟩ := sorted_path h i d hd
    apply h2
    rw [h1, add_eq_left] at he
    have := congrArg ZMod.val he
    rwa [ZMod.val_natCast_of_lt (by omega), ZMod.val_zero] at this
  intro i hi j hj hij
  rcases Nat.le_total i j with hle | hle
  · have := key i (j - i) (by omega)
    rw [show i + (j - i) = j by omega] at this
    exact (this hij.symm).symm
  · have := key j (i - j) (by omega)
    rw [show j + (i - j) = i by omega] at this
    exact this hij

/-- The hypotheses of C27 hold for the trace of `simple_program`; its sorted accesses repeat and
increase. -/
example : Accepted Examples.main0.2 ⟨4, 3, 3, 1⟩ exampleRows Examples.ch0 ∧
    4 * exampleRows.length ≤ P ∧
    (sortedAccess false exampleRows 1).1 ≠ (sortedAccess false exampleRows 31).1 :=
  ⟨example_accepted, by decide +kernel, by decide +kernel⟩

/-! ## C28 and C29 -/

/-- The product the boundary constraint divides by. -/
theorem pubProd_ne_zero (pi : PublicInputs) (ch : RAPChallenges FE)
    (h : ∀ e ∈ pi.publicMemory, ch.zMemory ≠ e.1 + ch.alphaMemory * e.2) : pubProd pi ch ≠ 0 := by
  unfold pubProd
  rw [foldl_factor, one_mul]
  intro h0
  obtain ⟨e, he, h1⟩ := List.mem_map.1 (List.prod_eq_zero_iff.1 h0)
  exact h e he (sub_eq_zero.1 h1)

/-- C29 (and C28) are false: nothing ties the memory accesses to the sorted memory, nor to the public
memory. For any public inputs with an inhabited range of offsets, any challenges that avoid the poles,
any sequence of accesses that starts and ends at the claimed `pc`s, any registers and any contiguous
single-valued sorted memory, there is an accepted trace that contains exactly these. The first value
of the running product is chosen freely to make this work. -/
theorem C29_product_not_anchored (pi : PublicInputs) (opts : ProofOptions) (ch : RAPChallenges FE)
    (n : Nat) (acc sorted : Nat → FE × FE) (ap fp : Nat → FE) (lo hi : UInt16)
    (hsteps : pi.numSteps ≠ 0) (hn : pi.numSteps ≤ n)
    (hlo : pi.rangeCheckMin = some lo) (hhi : pi.rangeCheckMax = some hi)
    (hr : lo.toNat ≤ hi.toNat) (hr' : hi.toNat < lo.toNat + 3 * n)
    (hpub : ∀ e ∈ pi.publicMemory, ch.zMemory ≠ e.1 + ch.alphaMemory * e.2)
    (hacc : ∀ k < 4 * n, ch.zMemory ≠ (acc k).1 + ch.alphaMemory * (acc k).2)
    (hsorted : ∀ k, k + 1 < 4 * n →
      ((sorted (k + 1)).1 = (sorted k).1 ∧ (sorted (k + 1)).2 = (sorted k).2) ∨
        (sorted (k + 1)).1 = (sorted k).1 + 1)
    (hpc : (acc 0).1 = pi.pcInit) (hpc' : (acc (4 * (pi.numSteps - 1))).1 = pi.pcFinal)
    (hap : ap 0 = pi.apInit) (hap' : ap (pi.numSteps - 1) = pi.apFinal) :
    ∃ rows, rows.length = n ∧ Accepted pi opts rows ch ∧
      (∀ k < 4 * n, access rows k = acc k) ∧
      (∀ k < 4 * n, sortedAccess (hasRcBuiltin pi) rows k = sorted k) ∧
      ∀ i < n, cell rows i FRAME_AP = ap i ∧ cell rows i FRAME_FP = fp i := by
  obtain ⟨rows, h1, h2, h3, h4, h5⟩ := forge pi opts ch n acc sorted ap fp lo hi hsteps hn hlo hhi hr hr'
    (pubProd_ne_zero pi ch hpub) hsorted (fun k _ hk => hacc k hk) hpc hpc' hap hap'
  exact ⟨rows, h1, h2, h3, h4, fun i hi => ⟨(h5 i hi).1, (h5 i hi).2.1⟩⟩

/-- The hypotheses of `C29_product_not_anchored` hold for a claim about `simple_program`'s public inputs
with a wrong final `pc`, accesses that only read the cells at the two claimed `pc`s, and a sorted memory
that only holds zeros. -/
example : ∃ (pi : PublicInputs) (ch : RAPChallenges FE) (acc sorted : Nat → FE × FE) (ap : Nat → FE)
    (lo hi : UInt16), pi.numSteps ≠ 0 ∧ pi.numSteps ≤ 8 ∧ pi.pcFinal = 77 ∧
    pi.publicMemory.length = 5 ∧
    pi.rangeCheckMin = some lo ∧ pi.rangeCheckMax = some hi ∧ lo.toNat ≤ hi.toNat ∧
    hi.toNat < lo.toNat + 3 * 8 ∧
    (∀ e ∈ pi.publicMemory, ch.zMemory ≠ e.1 + ch.alphaMemory * e.2) ∧
    (∀ k < 4 * 8, ch.zMemory ≠ (acc k).1 + ch.alphaMemory * (acc k).2) ∧
    (∀ k, k + 1 < 4 * 8 → ((sorted (k + 1)).1 = (sorted k).1 ∧ (sorted (k + 1)).2 = (sorted k).2) ∨
        (sorted (k + 1)).1 = (sorted k).1 + 1) ∧
    (acc 0).1 = pi.pcInit ∧ (acc (4 * (pi.numSteps - 1))).1 = pi.pcFinal ∧
    ap 0 = pi.apInit ∧ ap (pi.numSteps - 1) = pi.apFinal := by
  refine ⟨{ Examples.main0.2 with pcFinal := 77, rangeCheckMin := some 1, rangeCheckMax := some 9 },
    ⟨2, 300, 5⟩, fun k => (if k = 0 then 1 else 77, 0), fun _ => (0, 0),
    fun i => if i = 0 then 8 else 9, 1, 9, by decide +kernel, by decide +kernel, rfl,
    by decide +kernel, rfl, rfl, by decide, by decide, ?_, ?_,
    fun _ _ => Or.inl ⟨rfl, rfl⟩, by decide +kernel, by decide +kernel, by decide +kernel,
    by decide +kernel⟩
  · have h : (Examples.main0.2.publicMemory.all fun e => decide ((300 : FE) ≠ e.1 + 2 * e.2)) = true := by
      decide +kernel
    intro e he
    simpa using List.all_eq_true.1 h e he
  · intro k _
    have h1 : (300 : FE) ≠ 1 + 2 * 0 := by decide +kernel
    have h2 : (300 : FE) ≠ 77 + 2 * 0 := by decide +kernel
    show (300 : FE) ≠ (if k = 0 then 1 else 77) + 2 * 0
    split
    · exact h1
    · exact h2

/-- What C29 keeps: the constraints compare everything except the first access. The product of the
factors of the sorted accesses from the second one on, times `z ^ L` over the public factors, is the
product of the factors of the accesses from the second one on, times the first value of the running
product. Missing: the first value is not tied to the first factors. -/
theorem C29_rest_compared_partial (h : Accepted pi opts rows ch) :
    ((List.range (4 * rows.length - 1)).map fun k =>
        ch.zMemory - ((sortedAccess (hasRcBuiltin pi) rows (k + 1)).1 +
          ch.alphaMemory * (sortedAccess (hasRcBuiltin pi) rows (k + 1)).2)).prod *
      (ch.zMemory ^ pi.publicMemory.length /
        (pi.publicMemory.map fun e => ch.zMemory - (e.1 + ch.alphaMemory * e.2)).prod) =
    ((List.range (4 * rows.length - 1)).map fun k =>
        ch.zMemory - ((access rows (k + 1)).1 + ch.alphaMemory * (access rows (k + 1)).2)).prod *
      runningProduct (hasRcBuiltin pi) rows 0 := by
  obtain ⟨⟨lo, hi, he⟩, -⟩ := h.parts
  have hn := h.pos
  have hlast : runningProduct (hasRcBuiltin pi) rows (4 * rows.length - 1) =
      ch.zMemory ^ pi.publicMemory.length /
        (pi.publicMemory.map fun e => ch.zMemory - (e.1 + ch.alphaMemory * e.2)).prod := by
    unfold runningProduct
    rw [show (4 * rows.length - 1) / 4 = rows.length - 1 by omega,
      show (4 * rows.length - 1) % 4 = 3 by omega]
    refine he.perm.trans ?_
    unfold pubProd
    rw [foldl_factor, one_mul, div_eq_mul_inv]
  rw [← hlast]
  have key : ∀ d, d < 4 * rows.length →
      ((List.range d).map fun k => ch.zMemory - ((sortedAccess (hasRcBuiltin pi) rows (k + 1)).1 +
          ch.alphaMemory * (sortedAccess (hasRcBuiltin pi) rows (k + 1)).2)).prod *
        runningProduct (hasRcBuiltin pi) rows d =
      ((List.range d).map fun k =>
        ch.zMemory - ((access rows (k + 1)).1 + ch.alphaMemory * (access rows (k + 1)).2)).prod *
        runningProduct (hasRcBuiltin pi) rows 0 := by
    intro d
    induction d with
    | zero => intro _; simp
    | succ d ih =>
      intro hd
      have h1 := ih (by omega)
      have h2 := product_step h d hd
      rw [List.range_succ, List.map_append, List.prod_append, List.map_append, List.prod_append]
      simp only [List.map_cons, List.map_nil, List.prod_cons, List.prod_nil, mul_one]
      generalize ((List.range d).map fun k => ch.zMemory - ((sortedAccess (hasRcBuiltin pi) rows (k + 1)).1 +
          ch.alphaMemory * (sortedAccess (hasRcBuiltin pi) rows (k + 1)).2)).prod = A at h1 ⊢
      generalize ((List.range d).map fun k =>
        ch.zMemory - ((access rows (k + 1)).1 + ch.alphaMemory * (access rows (k + 1)).2)).prod = B at h1 ⊢
      linear_combination A * h2 + (ch.zMemory -
        ((access rows (d + 1)).1 + ch.alphaMemory * (access rows (d + 1)).2)) * h1
  exact key _ (by omega)

/-- The hypothesis of `C29_rest_compared_partial` holds for the trace of `simple_program`, which makes 32 accesses to
five public cells. -/
example : 4 * exampleRows.length = 32 ∧ Examples.main0.2.publicMemory.length = 5 ∧
    Accepted Examples.main0.2 ⟨4, 3, 3, 1⟩ exampleRows Examples.ch0 :=
  ⟨by decide +kernel, by decide +kernel, example_accepted⟩

end Verif.Props
