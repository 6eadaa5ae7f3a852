import Verif.Lemmas.PubMem
import Verif.Lemmas.CairoAir
import Verif.Examples.Traces

/-!
# Properties of the auxiliary trace: C19, C22, C23
-/

namespace Verif.Props
open Verif.ExecTrace Verif.CairoAir Verif.Spec

/-- **C19.** For the public inputs of a run, replacing the last accesses of a trace by the public
memory succeeds whenever the trace has enough accesses; the replaced accesses are exactly the cells
of the public memory (each once) and all other accesses stay where they were. The cells of the
public memory are those of the program and of the output segment. -/
theorem C19_public_memory_placed {states : List RegistersState} {mem : CairoMemory} {size : Nat}
    {segs : MemorySegmentMap} {pi : PublicInputs}
    (h : fromRegsAndMem states mem size segs = .ok pi) (hsize : size < 2 ^ 64)
    (hout : OutputAfterProgram size segs)
    (addresses values : List FE) (hav : addresses.length = values.length)
    (hlen : pi.publicMemory.length ≤ addresses.length) :
    (∃ addresses' values', addPubMemory addresses values pi = .ok (addresses', values') ∧
      ∃ pub, pub.Perm pi.publicMemory ∧
        addresses'.zip values' =
          (addresses.zip values).take (addresses.length - pi.publicMemory.length) ++ pub) ∧
    (∀ a v, (a, v) ∈ pi.publicMemory ↔ ∃ n : Nat, a = (n : FE) ∧ mem.get? n = some v ∧
      IsPublic size segs n) := by
  obtain ⟨addrs, hget, hkeys, hnd, hseg, hent, -, hso, hno⟩ := fromRegsAndMem_ok h hsize hout
  have hP64 : (2 : Nat) ^ 64 < P := lt_trans (by norm_num) P_gt
  constructor
  · obtain ⟨pub, hperm, hpa, hlook⟩ := lookup_all (m := pi.publicMemory) (addrs := addrs)
      (by rw [hkeys]) hnd
    refine ⟨addresses.take (addresses.length - pi.publicMemory.length) ++ addrs,
      values.take (addresses.length - pi.publicMemory.length) ++ pub.map Prod.snd, ?_, pub, hperm, ?_⟩
    · unfold addPubMemory
      simp only
      rw [if_neg (by omega), hseg, hget]
      simp only [Outcome.bind_ok]
      rw [hlook]
      rfl
    · rw [List.zip_append (by simp; omega), ← hpa]
      have htz : ∀ (k : Nat), (addresses.take k).zip (values.take k)
          = (addresses.zip values).take k := by
        intro k; simp [List.zip, List.take_zipWith]
      rw [htz]
      congr 1
      rw [← List.unzip_fst, ← List.unzip_snd, List.zip_unzip]
  · intro a v
    have hpub64 : ∀ n, IsPublic size segs n → n < 2 ^ 64 := by
      rintro n (h | ⟨s, e, ho, h1, h2⟩)
      · omega
      · have := hout s e ho; omega
    constructor
    · intro hav'
      obtain ⟨n, h1, h2, h3⟩ := hent _ hav'
      exact ⟨n, h2, h1, h3⟩
    · rintro ⟨n, rfl, hv, hn⟩
      have hmem : (n : FE) ∈ addrs := by
        cases ho : segs.get? .output with
        | none =>
          rw [hno ho, List.mem_map]
          rcases hn with hn | ⟨s, e, h, -⟩
          · exact ⟨n, by rw [List.mem_range'_1]; omega, rfl⟩
          · rw [ho] at h; cases h
        | some r =>
          obtain ⟨s, e⟩ := r
          rw [hso s e ho, List.mem_append, List.mem_map, List.mem_map]
          rcases hn with hn | ⟨s', e', h, h4⟩
          · left; exact ⟨n, by rw [List.mem_range'_1]; omega, rfl⟩
          · rw [ho] at h; cases h
            right; exact ⟨n, by rw [List.mem_range'_1]; omega, rfl⟩
      rw [← hkeys, List.mem_map] at hmem
      obtain ⟨e, he, hen⟩ := hmem
      obtain ⟨n', h1, h2, h3⟩ := hent e he
      have h64 := hpub64 n hn
      have h64' := hpub64 n' h3
      have : n' = n := by
        have := congrArg ZMod.val (h2.symm.trans hen)
        rwa [ZMod.val_natCast_of_lt (by omega), ZMod.val_natCast_of_lt (by omega)] at this
      subst this
      rw [hv] at h1
      have : e = ((n' : FE), v) := Prod.ext h2 (Option.some.inj h1).symm
      exact this ▸ he

/-- The hypotheses of C19 hold for the run of `simple_program` (five program cells). -/
example : ∃ pi, fromRegsAndMem Examples.states Examples.mem 5 [] = .ok pi ∧
    pi.publicMemory.length = 5 ∧ OutputAfterProgram 5 [] := by
  refine ⟨_, rfl, by decide +kernel, ?_⟩
  intro s e h; cases h

/-- **C22.** The sorted memory columns of the auxiliary trace, read row by row, are ordered by
address and contain the accesses of the main trace with the last ones replaced by the public memory,
each as often; the sorted offset columns are increasing and contain the offsets of the main trace,
each as often, whenever these are 16-bit. -/
theorem C22_sorted_columns {states : List RegistersState} {mem : CairoMemory} {size : Nat}
    {segs : MemorySegmentMap} {pi pi' : PublicInputs}
    (h : fromRegsAndMem states mem size segs = .ok pi) (hsize : size < 2 ^ 64)
    (hout : OutputAfterProgram size segs)
    (hpm : pi'.publicMemory = pi.publicMemory) (hps : pi'.memorySegments = pi.memorySegments)
    {rows aux : List (List FE)} {ch : RAPChallenges FE}
    (haux : buildAuxiliaryTrace pi' rows ch = .ok aux) :
    aux.length = rows.length ∧
    (∀ pairs, pairs = (getCols aux [3, 4, 5, 6]).zip (getCols aux [7, 8, 9, 10]) →
      pairs.Pairwise (fun x y => x.1.val ≤ y.1.val) ∧
      pairs.Perm ((accesses rows).take (4 * rows.length - pi.publicMemory.length)
        ++ pi.publicMemory)) ∧
    (getCols aux [0, 1, 2]).Pairwise (fun x y => x.val ≤ y.val) ∧
    ((∀ x ∈ getCols rows [OFF_DST, OFF_OP0, OFF_OP1], x.val < 2 ^ 16) →
      (getCols aux [0, 1, 2]).Perm (getCols rows [OFF_DST, OFF_OP0, OFF_OP1])) := by
  obtain ⟨addrs, vals, pcol, rcol, sorted, A⟩ := buildAuxiliaryTrace_ok haux
  have hlen4 : (getCols rows ADDR_COLUMNS).length = 4 * rows.length := by
    rw [length_getCols]; rfl
  have hlen4' : (getCols rows VALUE_COLUMNS).length = 4 * rows.length := by
    rw [length_getCols]; rfl
  have hadd : addPubMemory (getCols rows ADDR_COLUMNS) (getCols rows VALUE_COLUMNS) pi
      = .ok (addrs, vals) := by
    rw [← A.pub]; unfold addPubMemory; rw [hpm, hps]
  have hle : pi.publicMemory.length ≤ (getCols rows ADDR_COLUMNS).length := by
    by_contra hc
    unfold addPubMemory at hadd
    simp only at hadd
    rw [if_pos (by omega)] at hadd
    cases hadd
  obtain ⟨⟨a', v', h', pub, hperm, hzip⟩, -⟩ := C19_public_memory_placed h hsize hout _ _
    (hlen4.trans hlen4'.symm) hle
  rw [hadd] at h'
  simp only [Outcome.ok.injEq, Prod.mk.injEq] at h'
  obtain ⟨rfl, rfl⟩ := h'
  rw [hlen4] at hzip
  refine ⟨A.len, ?_, ?_, ?_⟩
  · rintro pairs rfl
    rw [aux_pairs A, A.sorted_eq]
    refine ⟨sortByAddress_pairwise _, (sortByAddress_perm _).trans ?_⟩
    rw [hzip]
    exact List.Perm.append_left _ hperm
  · rw [aux_offsets A]; exact sortedOffsets_pairwise rows
  · intro h16
    rw [aux_offsets A]; exact sortedOffsets_perm h16

/-- The hypotheses of C22 hold for the run of `simple_program`, whose main trace has eight rows. -/
example : fromRegsAndMem Examples.states Examples.mem 5 [] = .ok Examples.pi0 ∧
    Examples.main0.2.publicMemory = Examples.pi0.publicMemory ∧
    Examples.main0.2.memorySegments = Examples.pi0.memorySegments ∧
    buildAuxiliaryTrace Examples.main0.2 Examples.main0.1 Examples.ch0 = .ok Examples.aux0 ∧
    (∀ x ∈ getCols Examples.main0.1 [OFF_DST, OFF_OP0, OFF_OP1], x.val < 2 ^ 16) :=
  ⟨Examples.pi0_eq, by decide +kernel, by decide +kernel, Examples.aux0_eq, Examples.main0_offsets⟩

/-- **C23**, memory: on the concatenation of a main trace (of the width the AIR expects) and its
auxiliary trace, the memory permutation constraints vanish on every two consecutive rows, those that
do not read the next row vanish on the last row too, and, when the accesses reserved for the public
memory are dummies, the last running product is the value the boundary constraint asks for. -/
theorem C23_memory_permutation {pi : PublicInputs} (hasRc : Bool)
    {rows aux : List (List FE)} {ch : RAPChallenges FE}
    (hw : ∀ r ∈ rows, r.length = 43 - builtinOffset hasRc)
    (haux : buildAuxiliaryTrace pi rows ch = .ok aux) :
    (∀ i, i + 1 < rows.length → ∀ k, 39 ≤ k → k < 43 →
      (computeTransition hasRc ch (fullRow rows aux i) (fullRow rows aux (i + 1)))[k]? = some 0) ∧
    (∀ i < rows.length, ∀ next, ∀ k, 39 ≤ k → k < 42 →
      (computeTransition hasRc ch (fullRow rows aux i) next)[k]? = some 0) ∧
    (∀ pub : List (FE × FE),
      (∃ sorted, sorted = (getCols aux [3, 4, 5, 6]).zip (getCols aux [7, 8, 9, 10]) ∧
        sorted.Perm ((accesses rows).take (4 * rows.length - pub.length) ++ pub)) →
      (accesses rows).drop (4 * rows.length - pub.length) = List.replicate pub.length (0, 0) →
      0 < rows.length →
      fullRow rows aux (rows.length - 1) (PERMUTATION_ARGUMENT_COL_0 + 3 - builtinOffset hasRc) =
        ch.zMemory ^ pub.length *
          (pub.map fun e => ch.zMemory - (e.1 + ch.alphaMemory * e.2)).prod⁻¹) := by
  obtain ⟨addrs, vals, pcol, rcol, sorted, A⟩ := buildAuxiliaryTrace_ok haux
  obtain ⟨hstep, hfin⟩ := A.mem_col
  have hrow : ∀ i < rows.length, ∀ next, ∀ k, 39 ≤ k → k < 42 →
      (computeTransition hasRc ch (fullRow rows aux i) next)[k]? = some 0 := by
    intro i hi next k hk1 hk2
    obtain ⟨-, ha, hv, hp, -⟩ := A.cells hw hi
    have hacc := fullRow_access (aux := aux) hw hi
    obtain ⟨j, rfl⟩ : ∃ j, k = 39 + j := ⟨k - 39, by omega⟩
    rw [transition_permutation _ _ _ _ _ (by omega)]
    have hj : j < 3 := by omega
    have h := hstep (4 * i + j) (by omega)
    rw [Nat.add_assoc, hacc (j + 1) (by omega)] at h
    simp only [permutationArgument, ha 1 (by decide), ha 2 (by decide), ha 3 (by decide),
      hv 1 (by decide), hv 2 (by decide), hv 3 (by decide), hp 0 (by decide), hp 1 (by decide),
      hp 2 (by decide), hp 3 (by decide)]
    interval_cases j <;> simpa [memFactor, sub_eq_zero] using h
  refine ⟨?_, hrow, ?_⟩
  · intro i hi k hk1 hk2
    by_cases hk : k < 42
    · exact hrow i (by omega) _ k hk1 hk
    · obtain rfl : k = 39 + 3 := by omega
      rw [transition_permutation _ _ _ _ _ (by omega)]
      obtain ⟨-, -, -, hp, -⟩ := A.cells hw (i := i) (by omega)
      obtain ⟨-, ha, hv, hp', -⟩ := A.cells hw hi
      have hacc := fullRow_access (aux := aux) hw hi
      have h := hstep (4 * i + 3) (by omega)
      rw [show 4 * i + 3 + 1 = 4 * (i + 1) + 0 from by ring, hacc 0 (by decide)] at h
      have ha0 := ha 0 (by decide)
      have hv0 := hv 0 (by decide)
      have hp0 := hp' 0 (by decide)
      rw [Nat.add_zero] at ha0 hv0 hp0
      simp only [permutationArgument, ha0, hv0, hp0, hp 3 (by decide)]
      simpa [memFactor, sub_eq_zero] using h
  · rintro pub ⟨s', hs', hperm⟩ hdummy hn
    obtain ⟨-, -, -, hp, -⟩ := A.cells hw (i := rows.length - 1) (by omega)
    rw [hp 3 (by decide), show 4 * (rows.length - 1) + 3 = 4 * rows.length - 1 from by omega]
    have hzip : s' = sorted := by
      rw [hs']; exact aux_pairs A
    rw [hzip] at hperm
    have hfin := hfin hn
    rw [(hperm.map (memFactor ch)).prod_eq] at hfin
    have hsplit := List.take_append_drop (4 * rows.length - pub.length) (accesses rows)
    rw [hdummy] at hsplit
    rw [← hsplit] at hfin
    have hne : ((List.take (4 * rows.length - pub.length) (accesses rows) ++ pub).map
        (memFactor ch)).prod ≠ 0 := by
      rw [← (hperm.map (memFactor ch)).prod_eq]
      intro h; exact A.mem_ne (List.prod_eq_zero_iff.1 h)
    have htake : List.take (4 * rows.length - pub.length)
        (List.take (4 * rows.length - pub.length) (accesses rows) ++
          List.replicate pub.length (0, 0)) =
        List.take (4 * rows.length - pub.length) (accesses rows) := by rw [hsplit]
    rw [htake, List.map_append, List.map_append, List.prod_append, List.prod_append] at hfin
    rw [List.map_append, List.prod_append] at hne
    have hne1 := left_ne_zero_of_mul hne
    have hne2 := right_ne_zero_of_mul hne
    have hz : (List.map (memFactor ch) (List.replicate pub.length (0, 0))).prod
        = ch.zMemory ^ pub.length := by simp [memFactor]
    rw [hz] at hfin
    change _ = ch.zMemory ^ pub.length * (pub.map (memFactor ch)).prod⁻¹
    rw [eq_mul_inv_iff_mul_eq₀ hne2]
    apply mul_left_cancel₀ hne1
    linear_combination hfin

/-- **C23**, range check: the range-check permutation constraints vanish on every row with its
(cyclic) successor, and the last running product is one. -/
theorem C23_range_check_permutation {pi : PublicInputs} (hasRc : Bool)
    {rows aux : List (List FE)} {ch : RAPChallenges FE}
    (hw : ∀ r ∈ rows, r.length = 43 - builtinOffset hasRc)
    (haux : buildAuxiliaryTrace pi rows ch = .ok aux)
    (h16 : ∀ x ∈ getCols rows [OFF_DST, OFF_OP0, OFF_OP1], x.val < 2 ^ 16) :
    (∀ i < rows.length, ∀ k, 46 ≤ k → k < 49 →
      (computeTransition hasRc ch (fullRow rows aux i)
        (fullRow rows aux ((i + 1) % rows.length)))[k]? = some 0) ∧
    (0 < rows.length → fullRow rows aux (rows.length - 1)
      (PERMUTATION_ARGUMENT_RANGE_CHECK_COL_1 + 2 - builtinOffset hasRc) = 1) := by
  obtain ⟨addrs, vals, pcol, rcol, sorted, A⟩ := buildAuxiliaryTrace_ok haux
  obtain ⟨hstep, hinit, hfin⟩ := A.rc_col
  have hperm := sortedOffsets_perm h16
  constructor
  · intro i hi k hk1 hk2
    have hn : 0 < rows.length := by omega
    have hi' : (i + 1) % rows.length < rows.length := Nat.mod_lt _ hn
    obtain ⟨ho, -, -, -, hp⟩ := A.cells hw hi
    obtain ⟨ho', -, -, -, hp'⟩ := A.cells hw hi'
    have hoff := fullRow_offset (aux := aux) hw hi
    have hoff' := fullRow_offset (aux := aux) hw hi'
    have ho0' := ho' 0 (by decide)
    have hp0' := hp' 0 (by decide)
    have hp0 := hp 0 (by decide)
    rw [Nat.add_zero] at ho0' hp0' hp0
    have hc2 : fullRow rows aux i (RANGE_CHECK_COL_2 - builtinOffset hasRc)
      = (sortedOffsets rows).getD (3 * i + 1) 0 := ho 1 (by decide)
    have hc3 : fullRow rows aux i (RANGE_CHECK_COL_3 - builtinOffset hasRc)
      = (sortedOffsets rows).getD (3 * i + 2) 0 := ho 2 (by decide)
    obtain ⟨j, rfl⟩ : ∃ j, k = 43 + j := ⟨k - 43, by omega⟩
    rw [transition_rangeCheck _ _ _ _ _ (by omega)]
    simp only [permutationArgumentRangeCheck, hc2, hc3, ho0', hp0', hp0, hp 1 (by decide),
      hp 2 (by decide)]
    have e0 := hoff' 0 (by decide)
    have e1 := hoff 1 (by decide)
    have e2 := hoff 2 (by decide)
    simp only [Nat.add_zero] at e0
    by_cases h3 : j = 3
    · subst h3
      have h := hstep (3 * i) (by omega)
      simp only [List.getElem?_cons_succ, List.getElem?_cons_zero, Option.some.injEq]
      rw [e1] at h
      exact sub_eq_zero.2 h
    by_cases h4 : j = 4
    · subst h4
      have h := hstep (3 * i + 1) (by omega)
      simp only [List.getElem?_cons_succ, List.getElem?_cons_zero, Option.some.injEq]
      rw [e2] at h
      exact sub_eq_zero.2 h
    · obtain rfl : j = 5 := by omega
      simp only [List.getElem?_cons_succ, List.getElem?_cons_zero, Option.some.injEq]
      by_cases hl : i + 1 < rows.length
      · rw [Nat.mod_eq_of_lt hl] at e0 ⊢
        have h := hstep (3 * i + 2) (by omega)
        rw [show 3 * i + 2 + 1 = 3 * (i + 1) from by ring, e0] at h
        exact sub_eq_zero.2 h
      · obtain rfl : i = rows.length - 1 := by omega
        rw [show rows.length - 1 + 1 = rows.length from by omega, Nat.mod_self] at e0 ⊢
        rw [show 3 * (rows.length - 1) + 2 = 3 * rows.length - 1 from by omega, hfin hn hperm]
        have h := hinit hn
        rw [Nat.mul_zero] at e0 ⊢
        rw [e0] at h
        rw [mul_one]
        exact sub_eq_zero.2 h
  · intro hn
    obtain ⟨-, -, -, -, hp⟩ := A.cells hw (i := rows.length - 1) (by omega)
    rw [hp 2 (by decide), show 3 * (rows.length - 1) + 2 = 3 * rows.length - 1 from by omega]
    exact hfin hn hperm

/-- The hypotheses of C23 hold for the run of `simple_program`: width, auxiliary trace, and the dummy
accesses reserved for the five cells of the public memory. -/
example : (∀ r ∈ Examples.main0.1, r.length = 43 - builtinOffset false) ∧
    buildAuxiliaryTrace Examples.main0.2 Examples.main0.1 Examples.ch0 = .ok Examples.aux0 ∧
    (accesses Examples.main0.1).drop (4 * Examples.main0.1.length - 5) = List.replicate 5 (0, 0) ∧
    (∀ x ∈ getCols Examples.main0.1 [OFF_DST, OFF_OP0, OFF_OP1], x.val < 2 ^ 16) :=
  ⟨Examples.main0_width, Examples.aux0_eq, by decide +kernel, Examples.main0_offsets⟩

end Verif.Props
