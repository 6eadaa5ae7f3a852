import Verif.Lemmas.Holes
import Verif.Lemmas.Trace
import Mathlib.Algebra.BigOperators.Group.List.Basic
import Mathlib.Algebra.GroupWithZero.Basic
import Mathlib.Tactic.FieldSimp
import Mathlib.Tactic.Ring
import Mathlib.Algebra.BigOperators.Ring.List

/-! Helper lemmas about the auxiliary trace. -/

namespace Verif.ExecTrace
open CairoAir

theorem runningProducts_length (a : FE) (l : List FE) : (runningProducts a l).length = l.length := by
  induction l generalizing a with
  | nil => rfl
  | cons x t ih => simp [runningProducts, ih]

theorem runningProducts_getElem? (a : FE) (l : List FE) (k : Nat) (hk : k < l.length) :
    (runningProducts a l)[k]? = some (a * (l.take (k + 1)).prod) := by
  induction l generalizing a k with
  | nil => simp at hk
  | cons x t ih =>
    cases k with
    | zero => simp [runningProducts]
    | succ k =>
      simp only [runningProducts, List.getElem?_cons_succ, List.take_succ_cons, List.prod_cons]
      rw [ih _ _ (by simpa using hk), mul_assoc]

/-- Reading a list of rows column group by column group. -/
theorem getCols_map_range (n w : Nat) (f : Nat → List FE) (cols : List Nat) (g : Nat → FE)
    (hw : cols.length = w) (h : ∀ i < n, ∀ k < w, (f i).getD (cols.getD k 0) 0 = g (w * i + k)) :
    getCols ((List.range n).map f) cols = (List.range (w * n)).map g := by
  induction n with
  | zero => simp [getCols]
  | succ n ih =>
    unfold getCols at ih ⊢
    rw [List.range_succ, List.map_append, List.flatMap_append,
      ih (fun i hi k hk => h i (by omega) k hk), Nat.mul_succ, List.range_add,
      List.map_append]
    congr 1
    simp only [List.map_cons, List.map_nil, List.flatMap_cons, List.flatMap_nil, List.append_nil,
      List.map_map]
    apply List.ext_getElem
    · simp [hw]
    · intro k h1 h2
      have hk : k < w := by simpa [hw] using h1
      have := h n (by omega) k hk
      simp only [List.getElem_map, List.getElem_range, Function.comp]
      rw [← this, List.getD_eq_getElem cols _ (by omega)]

theorem length_getCols (rows : List (List FE)) (cols : List Nat) :
    (getCols rows cols).length = cols.length * rows.length := by
  unfold getCols
  induction rows with
  | nil => simp
  | cons r t ih =>
    rw [List.flatMap_cons, List.length_append, ih]; simp [Nat.mul_succ]; omega

theorem getCols_getD (rows : List (List FE)) (cols : List Nat) (i k : Nat) (hi : i < rows.length)
    (hk : k < cols.length) :
    (getCols rows cols).getD (cols.length * i + k) 0 = (rows.getD i []).getD (cols.getD k 0) 0 := by
  unfold getCols
  induction rows generalizing i with
  | nil => simp at hi
  | cons r t ih =>
    rw [List.flatMap_cons]
    cases i with
    | zero =>
      rw [Nat.mul_zero, Nat.zero_add, List.getD_append _ _ _ _ (by simpa using hk)]
      rw [List.getD_eq_getElem _ _ (by simpa using hk), List.getElem_map, List.getD_cons_zero,
        List.getD_eq_getElem _ _ hk]
    | succ i =>
      have hlen : cols.length * (i + 1) + k = cols.length + (cols.length * i + k) := by
        rw [Nat.mul_succ]; omega
      rw [hlen, List.getD_append_right _ _ _ _ (by simp), List.length_map,
        Nat.add_sub_cancel_left, ih i (by simpa using hi), List.getD_cons_succ]

theorem map_range_getD {α : Type} (l : List α) (d : α) (n : Nat) (h : l.length = n) :
    (List.range n).map (fun k => l.getD k d) = l := by
  subst h
  apply List.ext_getElem
  · simp
  · intro i h1 h2
    simp [h2]

theorem zip_map_range {α β : Type} (n : Nat) (f : Nat → α) (g : Nat → β) :
    ((List.range n).map f).zip ((List.range n).map g) = (List.range n).map fun k => (f k, g k) := by
  apply List.ext_getElem
  · simp
  · intro i h1 h2
    simp

theorem sortByAddress_perm (l : List (FE × FE)) : (sortByAddress l).Perm l :=
  List.perm_insertionSort _ _

theorem sortByAddress_pairwise (l : List (FE × FE)) :
    (sortByAddress l).Pairwise (fun x y => x.1.val ≤ y.1.val) := by
  have : Std.Total (fun x y : FE × FE => x.1.val ≤ y.1.val) := ⟨fun a b => by omega⟩
  have : IsTrans (FE × FE) (fun x y => x.1.val ≤ y.1.val) := ⟨fun a b c => by omega⟩
  exact List.pairwise_insertionSort _ l

/-! ### Public memory -/

/-- A map whose keys are exactly a duplicate-free list of addresses: looking the addresses up gives
the entries of the map, in some order. -/
theorem lookup_all {m : HMap FE FE} {addrs : List FE}
    (hk : (m.map Prod.fst).Perm addrs) (hnd : addrs.Nodup) :
    ∃ pub : List (FE × FE), pub.Perm m ∧ pub.map Prod.fst = addrs ∧
      mapOutcome (fun a => (Outcome.ofOptionUnwrap (m.get? a) : Run FE)) addrs
        = .ok (pub.map Prod.snd) := by
  have hwf : m.WF := hk.nodup_iff.2 hnd
  have hget : ∀ a ∈ addrs, ∃ v, m.get? a = some v := by
    intro a ha
    obtain ⟨e, he, rfl⟩ := List.mem_map.1 (hk.mem_iff.2 ha)
    exact ⟨e.2, HMap.get?_eq_some_of_mem hwf he⟩
  refine ⟨addrs.map fun a => (a, (m.get? a).getD 0), ?_, ?_, ?_⟩
  · have hnd1 : (addrs.map fun a => (a, (m.get? a).getD 0)).Nodup := by
      apply List.Nodup.of_map Prod.fst
      rw [List.map_map]
      simpa [Function.comp_def] using hnd
    rw [List.perm_ext_iff_of_nodup hnd1 (List.Nodup.of_map _ hwf)]
    rintro ⟨a, v⟩
    rw [HMap.mem_iff_get? hwf, List.mem_map]
    constructor
    · rintro ⟨b, hb, he⟩
      obtain ⟨v', hv'⟩ := hget b hb
      simp only [Prod.mk.injEq] at he
      rw [← he.1, ← he.2, hv']; rfl
    · intro h
      refine ⟨a, hk.mem_iff.1 (List.mem_map.2 ⟨_, HMap.mem_of_get?_eq_some h, rfl⟩), ?_⟩
      rw [h]; rfl
  · simp [List.map_map, Function.comp_def]
  · rw [List.map_map]
    clear hk hnd
    induction addrs with
    | nil => rfl
    | cons a t ih =>
      obtain ⟨v, hv⟩ := hget a (by simp)
      rw [mapOutcome, ih (fun b hb => hget b (List.mem_cons_of_mem _ hb)), hv]
      simp [Outcome.ofOptionUnwrap, hv]

theorem getPubMemoryAddrs_length {r : Option (Nat × Nat)} {len : Nat} {addrs : List FE}
    (h : getPubMemoryAddrs r len = .ok addrs) : addrs.length = len := by
  unfold getPubMemoryAddrs at h
  split at h
  · split at h
    next hc => simp only [Outcome.ok.injEq] at h; subst h; simp; omega
    · cases h
  · simp only [Outcome.ok.injEq] at h; subst h; simp

theorem mapOutcome_length {ε α β : Type} {f : α → Outcome ε β} {l : List α} {r : List β}
    (h : mapOutcome f l = .ok r) : r.length = l.length := by
  induction l generalizing r with
  | nil => simp [mapOutcome] at h; subst h; rfl
  | cons a t ih =>
    simp only [mapOutcome, Outcome.bind_eq_ok, Outcome.pure_eq, Outcome.ok.injEq] at h
    obtain ⟨b, -, bs, hbs, rfl⟩ := h
    simp [ih hbs]

theorem addPubMemory_length {a v : List FE} {pi : PublicInputs} {a' v' : List FE}
    (hav : a.length = v.length) (h : addPubMemory a v pi = .ok (a', v')) :
    a'.length = a.length ∧ v'.length = a.length := by
  unfold addPubMemory at h
  simp only at h
  split at h
  · cases h
  next hc =>
    simp only [Outcome.bind_eq_ok, Outcome.pure_eq, Outcome.ok.injEq, Prod.mk.injEq] at h
    obtain ⟨addrs, ha, vals, hv, rfl, rfl⟩ := h
    have h1 := getPubMemoryAddrs_length ha
    have h2 := mapOutcome_length hv
    simp only [List.length_append, List.length_take]
    omega

/-! ### Running products -/

/-- The running product of quotients. -/
theorem runCol (nums dens : List FE) (hl : nums.length = dens.length) (h0 : (0 : FE) ∉ dens)
    (col : List FE)
    (hcol : col = runningProducts 1 ((nums.zip (dens.map (·⁻¹))).map fun x => x.1 * x.2)) :
    col.length = nums.length ∧
    (∀ k, k < nums.length →
      col.getD k 0 * (dens.take (k + 1)).prod = (nums.take (k + 1)).prod) ∧
    (∀ k, k + 1 < nums.length →
      dens.getD (k + 1) 0 * col.getD (k + 1) 0 = nums.getD (k + 1) 0 * col.getD k 0) := by
  set q := (nums.zip (dens.map (·⁻¹))).map fun x => x.1 * x.2 with hq
  have hql : q.length = nums.length := by simp [hq, hl]
  have hget : ∀ k, k < nums.length → col.getD k 0 = (q.take (k + 1)).prod := by
    intro k hk
    rw [hcol, List.getD_eq_getElem?_getD, runningProducts_getElem? _ _ _ (by omega)]
    simp
  have hqk : ∀ k (hk : k < nums.length), q[k]'(by omega) = nums[k] * (dens[k]'(by omega))⁻¹ := by
    intro k hk; simp [hq]
  have hdk : ∀ k (hk : k < nums.length), dens[k]'(by omega) ≠ 0 := by
    intro k hk h; exact h0 (h ▸ List.getElem_mem _)
  refine ⟨by rw [hcol, runningProducts_length, hql], ?_, ?_⟩
  · intro k
    induction k with
    | zero =>
      intro hk
      rw [hget 0 hk, List.prod_take_succ _ _ (by omega), List.prod_take_succ _ _ (by omega),
        List.prod_take_succ _ _ hk, hqk 0 hk]
      have := hdk 0 hk
      simp only [List.take_zero, List.prod_nil]
      field_simp
    | succ k ih =>
      intro hk
      have ih := ih (by omega)
      rw [hget k (by omega)] at ih
      rw [hget _ hk, List.prod_take_succ _ _ (by omega), List.prod_take_succ dens _ (by omega),
        List.prod_take_succ nums _ hk, hqk _ hk, ← ih]
      have := hdk _ hk
      field_simp
  · intro k hk
    rw [hget k (by omega), hget (k + 1) hk, List.prod_take_succ q (k + 1) (by omega), hqk _ hk,
      List.getD_eq_getElem dens _ (by omega), List.getD_eq_getElem nums _ hk]
    have := hdk _ hk
    field_simp

theorem batchInverse_ok {l r : List FE} (h : batchInverse l = .ok r) :
    (0 : FE) ∉ l ∧ r = l.map (·⁻¹) := by
  unfold batchInverse at h
  split at h
  · cases h
  next h0 => simp only [Outcome.ok.injEq] at h; exact ⟨h0, h.symm⟩

/-- The factor of one access in the memory permutation argument. -/
def memFactor (ch : RAPChallenges FE) (e : FE × FE) : FE :=
  ch.zMemory - (e.1 + ch.alphaMemory * e.2)

theorem memoryPermutationColumn_ok {o s : List (FE × FE)} {ch : RAPChallenges FE} {col : List FE}
    (h : memoryPermutationColumn o s ch = .ok col) :
    (0 : FE) ∉ s.map (memFactor ch) ∧
    col = runningProducts 1 (((o.map (memFactor ch)).zip ((s.map (memFactor ch)).map (·⁻¹))).map
      fun x => x.1 * x.2) := by
  unfold memoryPermutationColumn at h
  simp only [Outcome.bind_eq_ok, Outcome.pure_eq, Outcome.ok.injEq] at h
  obtain ⟨d, hd, rfl⟩ := h
  obtain ⟨h0, rfl⟩ := batchInverse_ok hd
  refine ⟨h0, ?_⟩
  simp only [List.zip_map_left, List.map_map]
  rfl

theorem rangeCheckPermutationColumn_ok {o s : List FE} {ch : RAPChallenges FE} {col : List FE}
    (h : rangeCheckPermutationColumn o s ch = .ok col) :
    (0 : FE) ∉ s.map (ch.zRangeCheck - ·) ∧
    col = runningProducts 1 (((o.map (ch.zRangeCheck - ·)).zip
      ((s.map (ch.zRangeCheck - ·)).map (·⁻¹))).map fun x => x.1 * x.2) := by
  unfold rangeCheckPermutationColumn at h
  simp only [Outcome.bind_eq_ok, Outcome.pure_eq, Outcome.ok.injEq] at h
  obtain ⟨d, hd, rfl⟩ := h
  obtain ⟨h0, rfl⟩ := batchInverse_ok hd
  refine ⟨h0, ?_⟩
  simp only [List.zip_map_left, List.map_map]
  rfl

/-! ### The rows of the auxiliary trace -/

/-- The sorted offsets. -/
def sortedOffsets (rows : List (List FE)) : List FE :=
  (sortNat ((getCols rows [OFF_DST, OFF_OP0, OFF_OP1]).map fun x => x.val % 2 ^ 16)).map
    fun n : Nat => (n : FE)

theorem length_accesses (rows : List (List FE)) : (accesses rows).length = 4 * rows.length := by
  simp [accesses, length_getCols, ADDR_COLUMNS, VALUE_COLUMNS]

theorem length_sortedOffsets (rows : List (List FE)) :
    (sortedOffsets rows).length = 3 * rows.length := by
  rw [sortedOffsets, List.length_map, (sortNat_perm _).length_eq, List.length_map, length_getCols]
  rfl

/-- What the auxiliary trace consists of. -/
structure AuxSpec (pi : PublicInputs) (rows : List (List FE)) (ch : RAPChallenges FE)
    (aux : List (List FE)) (addrs vals pcol rcol : List FE) (sorted : List (FE × FE)) : Prop where
  pub : addPubMemory (getCols rows ADDR_COLUMNS) (getCols rows VALUE_COLUMNS) pi = .ok (addrs, vals)
  sorted_eq : sorted = sortByAddress (addrs.zip vals)
  sorted_len : sorted.length = 4 * rows.length
  mem_ne : (0 : FE) ∉ sorted.map (memFactor ch)
  pcol_eq : pcol = runningProducts 1 ((((accesses rows).map (memFactor ch)).zip
    ((sorted.map (memFactor ch)).map (·⁻¹))).map fun x => x.1 * x.2)
  rc_ne : (0 : FE) ∉ (sortedOffsets rows).map (ch.zRangeCheck - ·)
  rcol_eq : rcol = runningProducts 1
    ((((getCols rows [OFF_DST, OFF_OP0, OFF_OP1]).map (ch.zRangeCheck - ·)).zip
      (((sortedOffsets rows).map (ch.zRangeCheck - ·)).map (·⁻¹))).map fun x => x.1 * x.2)
  len : aux.length = rows.length
  width : ∀ r ∈ aux, r.length = 18
  offs : ∀ i < rows.length, ∀ k < 3,
    (aux.getD i []).getD k 0 = (sortedOffsets rows).getD (3 * i + k) 0
  addr : ∀ i < rows.length, ∀ k < 4,
    (aux.getD i []).getD (3 + k) 0 = (sorted.getD (4 * i + k) (0, 0)).1
  val : ∀ i < rows.length, ∀ k < 4,
    (aux.getD i []).getD (7 + k) 0 = (sorted.getD (4 * i + k) (0, 0)).2
  perm : ∀ i < rows.length, ∀ k < 4, (aux.getD i []).getD (11 + k) 0 = pcol.getD (4 * i + k) 0
  rperm : ∀ i < rows.length, ∀ k < 3, (aux.getD i []).getD (15 + k) 0 = rcol.getD (3 * i + k) 0

theorem buildAuxiliaryTrace_ok {pi : PublicInputs} {rows : List (List FE)} {ch : RAPChallenges FE}
    {aux : List (List FE)} (h : buildAuxiliaryTrace pi rows ch = .ok aux) :
    ∃ addrs vals pcol rcol sorted, AuxSpec pi rows ch aux addrs vals pcol rcol sorted := by
  unfold buildAuxiliaryTrace at h
  simp only [Outcome.bind_eq_ok, Outcome.pure_eq, Outcome.ok.injEq, Prod.exists] at h
  obtain ⟨addrs, vals, hpub, pcol, hp, rcol, hr, rfl⟩ := h
  obtain ⟨p0, p1⟩ := memoryPermutationColumn_ok hp
  obtain ⟨r0, r1⟩ := rangeCheckPermutationColumn_ok hr
  have hlen : ∀ i < rows.length, ∀ f : Nat → List FE,
      ((List.range rows.length).map f).getD i [] = f i := by
    intro i hi f
    rw [List.getD_eq_getElem _ _ (by simpa using hi)]
    simp
  refine ⟨addrs, vals, pcol, rcol, _, hpub, rfl, ?_, p0, p1, r0, r1, by simp, ?_, ?_, ?_, ?_, ?_, ?_⟩
  · have := addPubMemory_length (by simp [length_getCols, ADDR_COLUMNS, VALUE_COLUMNS]) hpub
    rw [(sortByAddress_perm _).length_eq, List.length_zip]
    rw [length_getCols] at this
    simp [ADDR_COLUMNS] at this
    omega
  · intro r hr
    obtain ⟨i, -, rfl⟩ := List.mem_map.1 hr
    simp
  all_goals
    intro i hi k hk
    rw [hlen i hi]
    interval_cases k <;> simp [List.range_succ, sortedOffsets]

theorem fullRow_main {rows aux : List (List FE)} {i c w : Nat} (hw : ∀ r ∈ rows, r.length = w)
    (hi : i < rows.length) (hc : c < w) : fullRow rows aux i c = (rows.getD i []).getD c 0 := by
  unfold fullRow
  apply List.getD_append
  rw [List.getD_eq_getElem _ _ hi, hw _ (List.getElem_mem _)]
  exact hc

theorem fullRow_aux {rows aux : List (List FE)} {i c w : Nat} (hw : ∀ r ∈ rows, r.length = w)
    (hi : i < rows.length) (hc : w ≤ c) : fullRow rows aux i c = (aux.getD i []).getD (c - w) 0 := by
  have hl : (rows.getD i []).length = w := by
    rw [List.getD_eq_getElem _ _ hi, hw _ (List.getElem_mem _)]
  unfold fullRow
  rw [List.getD_append_right _ _ _ _ (by omega), hl]

theorem getD_zip {l : List FE} {l' : List FE} (k : Nat) (h : l.length = l'.length) :
    (l.zip l').getD k (0, 0) = (l.getD k 0, l'.getD k 0) := by
  by_cases hk : k < l.length
  · rw [List.getD_eq_getElem _ _ (by simp; omega), List.getD_eq_getElem _ _ hk,
      List.getD_eq_getElem _ _ (by omega)]
    simp
  · rw [List.getD_eq_default _ _ (by simp; omega), List.getD_eq_default _ _ (by omega),
      List.getD_eq_default _ _ (by omega)]

theorem accesses_getD (rows : List (List FE)) (i k : Nat) (hi : i < rows.length) (hk : k < 4) :
    (accesses rows).getD (4 * i + k) (0, 0) =
      ((rows.getD i []).getD (ADDR_COLUMNS.getD k 0) 0,
        (rows.getD i []).getD (VALUE_COLUMNS.getD k 0) 0) := by
  unfold accesses
  rw [getD_zip _ (by simp [length_getCols, ADDR_COLUMNS, VALUE_COLUMNS])]
  have h1 := getCols_getD rows ADDR_COLUMNS i k hi hk
  have h2 := getCols_getD rows VALUE_COLUMNS i k hi hk
  rw [show ADDR_COLUMNS.length = 4 from rfl] at h1
  rw [show VALUE_COLUMNS.length = 4 from rfl] at h2
  rw [h1, h2]

theorem getD_map' {α β : Type} (f : α → β) (l : List α) (k : Nat) (d : α) (d' : β)
    (hk : k < l.length) : (l.map f).getD k d' = f (l.getD k d) := by
  rw [List.getD_eq_getElem _ _ (by simpa using hk), List.getD_eq_getElem _ _ hk, List.getElem_map]

section
variable {pi : PublicInputs} {rows : List (List FE)} {ch : RAPChallenges FE}
  {aux : List (List FE)} {addrs vals pcol rcol : List FE} {sorted : List (FE × FE)}

theorem AuxSpec.mem_col (A : AuxSpec pi rows ch aux addrs vals pcol rcol sorted) :
    (∀ k, k + 1 < 4 * rows.length →
      memFactor ch (sorted.getD (k + 1) (0, 0)) * pcol.getD (k + 1) 0 =
        memFactor ch ((accesses rows).getD (k + 1) (0, 0)) * pcol.getD k 0) ∧
    (0 < rows.length → pcol.getD (4 * rows.length - 1) 0 * (sorted.map (memFactor ch)).prod
      = ((accesses rows).map (memFactor ch)).prod) := by
  have hl := length_accesses rows
  have hs := A.sorted_len
  obtain ⟨-, h1, h2⟩ := runCol _ _ (by simp [hl, hs]) A.mem_ne _ A.pcol_eq
  simp only [List.length_map, hl] at h1 h2
  constructor
  · intro k hk
    have := h2 k hk
    rwa [getD_map' _ _ _ (0, 0) _ (by omega), getD_map' _ _ _ (0, 0) _ (by omega)] at this
  · intro hn
    have := h1 (4 * rows.length - 1) (by omega)
    rwa [List.take_of_length_le (by simp [hs]; omega), List.take_of_length_le (by simp [hl]; omega)]
      at this

theorem AuxSpec.rc_col (A : AuxSpec pi rows ch aux addrs vals pcol rcol sorted) :
    (∀ k, k + 1 < 3 * rows.length →
      (ch.zRangeCheck - (sortedOffsets rows).getD (k + 1) 0) * rcol.getD (k + 1) 0 =
        (ch.zRangeCheck - (getCols rows [OFF_DST, OFF_OP0, OFF_OP1]).getD (k + 1) 0)
          * rcol.getD k 0) ∧
    (0 < rows.length →
      (ch.zRangeCheck - (sortedOffsets rows).getD 0 0) * rcol.getD 0 0 =
        ch.zRangeCheck - (getCols rows [OFF_DST, OFF_OP0, OFF_OP1]).getD 0 0) ∧
    (0 < rows.length → (sortedOffsets rows).Perm (getCols rows [OFF_DST, OFF_OP0, OFF_OP1]) →
      rcol.getD (3 * rows.length - 1) 0 = 1) := by
  have hl : (getCols rows [OFF_DST, OFF_OP0, OFF_OP1]).length = 3 * rows.length := by
    rw [length_getCols]; rfl
  have hs := length_sortedOffsets rows
  obtain ⟨-, h1, h2⟩ := runCol _ _ (by simp [hl, hs]) A.rc_ne _ A.rcol_eq
  simp only [List.length_map, hl] at h1 h2
  refine ⟨?_, ?_, ?_⟩
  · intro k hk
    have := h2 k hk
    rwa [getD_map' _ _ _ 0 _ (by omega), getD_map' _ _ _ 0 _ (by omega)] at this
  · intro hn
    have := h1 0 (by omega)
    rw [List.prod_take_succ _ _ (by simp [hs]; omega), List.prod_take_succ _ _ (by simp [hl]; omega)]
      at this
    simp only [List.take_zero, List.prod_nil, one_mul, List.getElem_map] at this
    rw [List.getD_eq_getElem (sortedOffsets rows) _ (by omega),
      List.getD_eq_getElem (getCols rows _) _ (by omega), mul_comm]
    exact this
  · intro hn hperm
    have := h1 (3 * rows.length - 1) (by omega)
    rw [List.take_of_length_le (by simp [hs]; omega), List.take_of_length_le (by simp [hl]; omega),
      (hperm.map (ch.zRangeCheck - ·)).prod_eq] at this
    have hne : ((getCols rows [OFF_DST, OFF_OP0, OFF_OP1]).map (ch.zRangeCheck - ·)).prod ≠ 0 := by
      rw [← (hperm.map (ch.zRangeCheck - ·)).prod_eq]
      intro h
      exact A.rc_ne (List.prod_eq_zero_iff.1 h)
    exact mul_right_cancel₀ hne (this.trans (one_mul _).symm)

theorem aux_pairs (A : AuxSpec pi rows ch aux addrs vals pcol rcol sorted) :
    (getCols aux [3, 4, 5, 6]).zip (getCols aux [7, 8, 9, 10]) = sorted := by
  have hauxrange : aux = (List.range rows.length).map (fun i => aux.getD i []) :=
    (map_range_getD aux [] _ A.len).symm
  have haddr : getCols aux [3, 4, 5, 6] = (List.range (4 * rows.length)).map
      (fun k => (sorted.getD k (0, 0)).1) := by
    rw [hauxrange]
    apply getCols_map_range _ 4 _ _ _ rfl
    intro i hi k hk
    rw [← A.addr i hi k hk]
    interval_cases k <;> rfl
  have hval : getCols aux [7, 8, 9, 10] = (List.range (4 * rows.length)).map
      (fun k => (sorted.getD k (0, 0)).2) := by
    rw [hauxrange]
    apply getCols_map_range _ 4 _ _ _ rfl
    intro i hi k hk
    rw [← A.val i hi k hk]
    interval_cases k <;> rfl
  rw [haddr, hval, zip_map_range]
  exact map_range_getD sorted (0, 0) _ A.sorted_len

theorem aux_offsets (A : AuxSpec pi rows ch aux addrs vals pcol rcol sorted) :
    getCols aux [0, 1, 2] = sortedOffsets rows := by
  have hauxrange : aux = (List.range rows.length).map (fun i => aux.getD i []) :=
    (map_range_getD aux [] _ A.len).symm
  rw [hauxrange, getCols_map_range _ 3 _ _ (fun k => (sortedOffsets rows).getD k 0) rfl,
    map_range_getD _ _ _ (length_sortedOffsets rows)]
  intro i hi k hk
  rw [← A.offs i hi k hk]
  interval_cases k <;> rfl

theorem sortedOffsets_perm
    (h16 : ∀ x ∈ getCols rows [OFF_DST, OFF_OP0, OFF_OP1], x.val < 2 ^ 16) :
    (sortedOffsets rows).Perm (getCols rows [OFF_DST, OFF_OP0, OFF_OP1]) := by
  rw [sortedOffsets]
  refine ((sortNat_perm _).map _).trans ?_
  rw [List.map_map]
  have : ∀ x ∈ getCols rows [OFF_DST, OFF_OP0, OFF_OP1],
      ((fun n : Nat => (n : FE)) ∘ fun x : FE => x.val % 2 ^ 16) x = id x := by
    intro x hx
    simp only [Function.comp, id]
    rw [Nat.mod_eq_of_lt (h16 x hx), ZMod.natCast_zmod_val]
  rw [List.map_congr_left this, List.map_id]

theorem sortedOffsets_pairwise (rows : List (List FE)) :
    (sortedOffsets rows).Pairwise (fun x y => x.val ≤ y.val) := by
  rw [sortedOffsets, List.pairwise_map]
  refine (List.Pairwise.and_mem.1 (sortNat_pairwise _)).imp ?_
  rintro a b ⟨ha, hb, hab⟩
  have hP : 2 ^ 16 < P := lt_trans (by norm_num) P_gt
  have hlt : ∀ c ∈ sortNat ((getCols rows [OFF_DST, OFF_OP0, OFF_OP1]).map
      fun x => x.val % 2 ^ 16), c < P := by
    intro c hc
    rw [mem_sortNat, List.mem_map] at hc
    obtain ⟨x, -, rfl⟩ := hc
    have := Nat.mod_lt x.val (show 0 < 2 ^ 16 by norm_num)
    omega
  rw [ZMod.val_natCast_of_lt (hlt a ha), ZMod.val_natCast_of_lt (hlt b hb)]
  exact hab

/-- The cells of the auxiliary columns in the full row. -/
theorem AuxSpec.cells (A : AuxSpec pi rows ch aux addrs vals pcol rcol sorted) {hasRc : Bool}
    (hw : ∀ r ∈ rows, r.length = 43 - builtinOffset hasRc) {i : Nat} (hi : i < rows.length) :
    (∀ k < 3, fullRow rows aux i (RANGE_CHECK_COL_1 + k - builtinOffset hasRc)
      = (sortedOffsets rows).getD (3 * i + k) 0) ∧
    (∀ k < 4, fullRow rows aux i (MEMORY_ADDR_SORTED_0 + k - builtinOffset hasRc)
      = (sorted.getD (4 * i + k) (0, 0)).1) ∧
    (∀ k < 4, fullRow rows aux i (MEMORY_VALUES_SORTED_0 + k - builtinOffset hasRc)
      = (sorted.getD (4 * i + k) (0, 0)).2) ∧
    (∀ k < 4, fullRow rows aux i (PERMUTATION_ARGUMENT_COL_0 + k - builtinOffset hasRc)
      = pcol.getD (4 * i + k) 0) ∧
    (∀ k < 3, fullRow rows aux i (PERMUTATION_ARGUMENT_RANGE_CHECK_COL_1 + k - builtinOffset hasRc)
      = rcol.getD (3 * i + k) 0) := by
  have hoff : builtinOffset hasRc ≤ 9 := by cases hasRc <;> decide
  simp only [RANGE_CHECK_COL_1, MEMORY_ADDR_SORTED_0, MEMORY_VALUES_SORTED_0,
    PERMUTATION_ARGUMENT_COL_0, PERMUTATION_ARGUMENT_RANGE_CHECK_COL_1]
  refine ⟨?_, ?_, ?_, ?_, ?_⟩ <;> intro k hk <;> rw [fullRow_aux hw hi (by omega)]
  · rw [← A.offs i hi k hk]; congr 1; omega
  · rw [← A.addr i hi k hk]; congr 1; omega
  · rw [← A.val i hi k hk]; congr 1; omega
  · rw [← A.perm i hi k hk]; congr 1; omega
  · rw [← A.rperm i hi k hk]; congr 1; omega

end

/-- The memory accesses in the full row. -/
theorem fullRow_access {rows aux : List (List FE)} {hasRc : Bool}
    (hw : ∀ r ∈ rows, r.length = 43 - builtinOffset hasRc) {i : Nat} (hi : i < rows.length) :
    ∀ k < 4, (accesses rows).getD (4 * i + k) (0, 0) =
      (fullRow rows aux i (19 + k), fullRow rows aux i (23 + k)) := by
  intro k hk
  have hoff : builtinOffset hasRc ≤ 9 := by cases hasRc <;> decide
  rw [accesses_getD rows i k hi hk, fullRow_main hw hi (by omega), fullRow_main hw hi (by omega)]
  interval_cases k <;> rfl

/-- The offsets in the full row. -/
theorem fullRow_offset {rows aux : List (List FE)} {hasRc : Bool}
    (hw : ∀ r ∈ rows, r.length = 43 - builtinOffset hasRc) {i : Nat} (hi : i < rows.length) :
    ∀ k < 3, (getCols rows [OFF_DST, OFF_OP0, OFF_OP1]).getD (3 * i + k) 0 =
      fullRow rows aux i (27 + k) := by
  intro k hk
  have hoff : builtinOffset hasRc ≤ 9 := by cases hasRc <;> decide
  have h := getCols_getD rows [OFF_DST, OFF_OP0, OFF_OP1] i k hi hk
  rw [show [OFF_DST, OFF_OP0, OFF_OP1].length = 3 from rfl] at h
  rw [h, fullRow_main hw hi (by omega)]
  interval_cases k <;> rfl

end Verif.ExecTrace
