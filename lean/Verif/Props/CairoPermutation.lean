import Mathlib.Combinatorics.Pigeonhole
import Verif.Props.CairoSound

/-!
# The permutation arguments, the range-check builtin and the boundary (C28, C30, C31, C32)
-/

namespace Verif.Props
open Verif.Spec Verif.CairoAir
open Verif.ExecTrace (foldl_factor)

variable {pi : PublicInputs} {opts : ProofOptions} {rows : List (List FE)} {ch : RAPChallenges FE}

/-! ## C28 -/

/-- What C28 keeps. Suppose that for every `α` in a large enough set and every `z` in a large enough set
there is an accepted trace with the accesses `acc` and the sorted memory `sorted`, *whose running product
starts at the first factor*. Then the sorted memory together with one `(0, 0)` per public cell is a
permutation of the accesses together with the public memory. Missing: the AIR does not force the start
of the running product (C29), and then the conclusion fails for every pole-free challenge
(`C28_fails`). -/
theorem C28_permutation_sound_partial (pi : PublicInputs) (opts : ProofOptions) (n : Nat)
    (acc sorted : Nat → FE × FE) (A : Finset FE) (Z : FE → Finset FE)
    (rows : FE → FE → List (List FE)) (zrc : FE → FE → FE)
    (hA : (2 * (4 * n + pi.publicMemory.length)) ^ 2 < A.card)
    (hZ : ∀ α ∈ A, 4 * n + pi.publicMemory.length < (Z α).card)
    (hacc : ∀ α ∈ A, ∀ z ∈ Z α, Accepted pi opts (rows α z) ⟨α, z, zrc α z⟩ ∧
      (rows α z).length = n ∧
      (∀ k < 4 * n, access (rows α z) k = acc k) ∧
      (∀ k < 4 * n, sortedAccess (hasRcBuiltin pi) (rows α z) k = sorted k) ∧
      (z - ((sorted 0).1 + α * (sorted 0).2)) * runningProduct (hasRcBuiltin pi) (rows α z) 0 =
        z - ((acc 0).1 + α * (acc 0).2)) :
    ((List.range (4 * n)).map sorted ++ List.replicate pi.publicMemory.length (0, 0)).Perm
      ((List.range (4 * n)).map acc ++ pi.publicMemory) := by
  set L := pi.publicMemory.length with hL
  have hlen : ((List.range (4 * n)).map sorted ++ List.replicate L (0, 0)).length = 4 * n + L := by simp
  have hlen' : ((List.range (4 * n)).map acc ++ pi.publicMemory).length = 4 * n + L := by simp [hL]
  refine perm_of_keys A (by rw [hlen, hlen', ← two_mul]; exact hA) fun α hα => ?_
  refine perm_of_products (by rw [List.length_map, List.length_map, hlen, hlen']) (Z α)
    (by rw [List.length_map, hlen]; exact hZ α hα) fun z hz => ?_
  obtain ⟨h, hn, ha, hs, h0⟩ := hacc α hα z hz
  obtain ⟨⟨lo, hi, he⟩, -⟩ := h.parts
  have hpos := h.pos
  have hchain := chain_product (N := 4 * n) (num := fun k => z - ((sorted k).1 + α * (sorted k).2))
    (den := fun k => z - ((acc k).1 + α * (acc k).2))
    (q := runningProduct (hasRcBuiltin pi) (rows α z)) h0 (by
      intro k hk
      have := product_step h k (by omega)
      rw [ha _ hk, hs _ hk] at this
      exact this) (4 * n - 1) (by omega)
  rw [show 4 * n - 1 + 1 = 4 * n by omega] at hchain
  have hlast : runningProduct (hasRcBuiltin pi) (rows α z) (4 * n - 1) =
      z ^ L * (pubProd pi ⟨α, z, zrc α z⟩)⁻¹ := by
    unfold runningProduct
    rw [show (4 * n - 1) / 4 = n - 1 by omega, show (4 * n - 1) % 4 = 3 by omega, ← hn]
    exact he.perm
  have hne := he.prod
  have hpp : pubProd pi ⟨α, z, zrc α z⟩ = (pi.publicMemory.map fun e => z - (e.1 + α * e.2)).prod := by
    unfold pubProd; rw [foldl_factor, one_mul]
  rw [hlast] at hchain
  rw [hpp] at hchain hne
  simp only [List.map_append, List.map_map, List.prod_append, List.map_replicate, mul_zero, add_zero,
    sub_zero, List.prod_replicate]
  have e1 : ((fun x => z - x) ∘ fun a : FE × FE => a.1 + α * a.2) = fun e => z - (e.1 + α * e.2) := rfl
  have e2 : ((fun x => z - x) ∘ (fun a : FE × FE => a.1 + α * a.2) ∘ sorted)
      = fun k => z - ((sorted k).1 + α * (sorted k).2) := rfl
  have e3 : ((fun x => z - x) ∘ (fun a : FE × FE => a.1 + α * a.2) ∘ acc)
      = fun k => z - ((acc k).1 + α * (acc k).2) := rfl
  rw [e1, e2, e3, ← hchain]
  field_simp

/-- The hypotheses of `C28_permutation_sound_partial` hold for four accesses of two cells, the first two
out of order, and all pole-free challenges. -/
example : ∃ (pi : PublicInputs) (opts : ProofOptions) (acc sorted : Nat → FE × FE) (A : Finset FE)
    (Z : FE → Finset FE) (rows : FE → FE → List (List FE)) (zrc : FE → FE → FE),
    acc 0 = (1, 7) ∧ sorted 0 = (0, 5) ∧
    (2 * (4 * 1 + pi.publicMemory.length)) ^ 2 < A.card ∧
    (∀ α ∈ A, 4 * 1 + pi.publicMemory.length < (Z α).card) ∧
    ∀ α ∈ A, ∀ z ∈ Z α, Accepted pi opts (rows α z) ⟨α, z, zrc α z⟩ ∧
      (rows α z).length = 1 ∧
      (∀ k < 4 * 1, access (rows α z) k = acc k) ∧
      (∀ k < 4 * 1, sortedAccess (hasRcBuiltin pi) (rows α z) k = sorted k) ∧
      (z - ((sorted 0).1 + α * (sorted 0).2)) * runningProduct (hasRcBuiltin pi) (rows α z) 0 =
        z - ((acc 0).1 + α * (acc 0).2) := by
  let pi : PublicInputs := ⟨1, 8, 8, 1, 8, some 0, some 0, [], [], 1⟩
  let acc : Nat → FE × FE := fun k => if k = 1 then (0, 5) else (1, 7)
  let sorted : Nat → FE × FE := fun k => if k = 0 then (0, 5) else (1, 7)
  have hex : ∀ α z : FE, z ≠ 0 + α * 5 → z ≠ 1 + α * 7 → ∃ rows,
      Accepted pi ⟨4, 3, 3, 1⟩ rows ⟨α, z, 0⟩ ∧ rows.length = 1 ∧
      (∀ k < 4 * 1, access rows k = acc k) ∧
      (∀ k < 4 * 1, sortedAccess (hasRcBuiltin pi) rows k = sorted k) := by
    intro α z h1 h2
    obtain ⟨rows, e1, e2, e3, e4, -⟩ := C29_product_not_anchored pi ⟨4, 3, 3, 1⟩ ⟨α, z, 0⟩ 1 acc sorted
      (fun _ => 8) (fun _ => 8) 0 0 (by decide) (by decide) rfl rfl le_rfl (by decide)
      (fun e he => by simp [pi] at he)
      (by
        intro k _
        by_cases hk : k = 1
        · simpa [acc, hk] using h1
        · simpa [acc, hk] using h2)
      (by
        intro k _
        by_cases hk : k = 0
        · right; simp [sorted, hk]
        · left; simp [sorted, hk])
      rfl rfl rfl rfl
    exact ⟨rows, e2, e1, e3, e4⟩
  choose! f hf using hex
  refine ⟨pi, ⟨4, 3, 3, 1⟩, acc, sorted, Finset.univ,
    fun α => Finset.univ \ {0 + α * 5, 1 + α * 7}, f, fun _ _ => 0, rfl, rfl, ?_, ?_, ?_⟩
  · rw [Finset.card_univ, ZMod.card]
    exact lt_trans (by norm_num [pi]) P_gt
  · intro α _
    have h1 := Finset.le_card_sdiff ({0 + α * 5, 1 + α * 7} : Finset FE) Finset.univ
    rw [Finset.card_univ, ZMod.card] at h1
    have h2 : ({0 + α * 5, 1 + α * 7} : Finset FE).card ≤ 2 := Finset.card_le_two
    have h3 : 2 ^ 20 < P := lt_trans (by norm_num) P_gt
    show 4 * 1 + 0 < _
    refine lt_of_lt_of_le ?_ h1
    omega
  · intro α _ z hz
    simp only [Finset.mem_sdiff, Finset.mem_univ, true_and, Finset.mem_insert, Finset.mem_singleton,
      not_or] at hz
    obtain ⟨h, hn, ha, hs⟩ := hf α z hz.1 hz.2
    refine ⟨h, hn, ha, hs, ?_⟩
    obtain ⟨⟨lo, hi, he⟩, -⟩ := h.parts
    have hlast : runningProduct (hasRcBuiltin pi) (f α z) 3 = 1 := by
      have := he.perm
      rw [hn] at this
      have e : runningProduct (hasRcBuiltin pi) (f α z) 3 =
          cell (f α z) (1 - 1) (57 - builtinOffset (hasRcBuiltin pi)) := rfl
      rw [e, this]
      simp [pi, pubProd]
    have s0 := product_step h 0 (by rw [hn]; decide)
    have s1 := product_step h 1 (by rw [hn]; decide)
    have s2 := product_step h 2 (by rw [hn]; decide)
    rw [ha 1 (by decide), hs 1 (by decide)] at s0
    rw [ha 2 (by decide), hs 2 (by decide)] at s1
    rw [ha 3 (by decide), hs 3 (by decide), hlast] at s2
    have n2 : z - (1 + α * 7) ≠ 0 := sub_ne_zero.2 hz.2
    have p2 : runningProduct (hasRcBuiltin pi) (f α z) 2 = 1 := by
      have : (z - (1 + α * 7)) * 1 = (z - (1 + α * 7)) * runningProduct (hasRcBuiltin pi) (f α z) 2 := s2
      exact (mul_left_cancel₀ n2 this).symm
    rw [p2] at s1
    have p1 : runningProduct (hasRcBuiltin pi) (f α z) 1 = 1 := by
      have : (z - (1 + α * 7)) * 1 = (z - (1 + α * 7)) * runningProduct (hasRcBuiltin pi) (f α z) 1 := s1
      exact (mul_left_cancel₀ n2 this).symm
    rw [p1, mul_one] at s0
    exact s0.symm

/-- C28 is false: there are accesses and a sorted memory that are not permutations of each other (in the
sense of C28) such that for every challenge that avoids the poles some accepted trace contains them. -/
theorem C28_fails : ∃ (pi : PublicInputs) (n : Nat) (acc sorted : Nat → FE × FE),
    ¬ ((List.range (4 * n)).map sorted ++ List.replicate pi.publicMemory.length (0, 0)).Perm
      ((List.range (4 * n)).map acc ++ pi.publicMemory) ∧
    ∀ (opts : ProofOptions) (ch : RAPChallenges FE),
      (∀ e ∈ pi.publicMemory, ch.zMemory ≠ e.1 + ch.alphaMemory * e.2) →
      (∀ k < 4 * n, ch.zMemory ≠ (acc k).1 + ch.alphaMemory * (acc k).2) →
      ∃ rows, rows.length = n ∧ Accepted pi opts rows ch ∧
        (∀ k < 4 * n, access rows k = acc k) ∧
        ∀ k < 4 * n, sortedAccess (hasRcBuiltin pi) rows k = sorted k := by
  refine ⟨⟨1, 8, 8, 1, 8, some 0, some 0, [], [(1, 5)], 1⟩, 1, fun _ => (1, 5), fun _ => (2, 6), ?_, ?_⟩
  · intro h
    have := (h.mem_iff (a := ((2, 6) : FE × FE))).1 (by simp)
    simp only [List.mem_append, List.mem_map, List.mem_range, List.mem_singleton] at this
    have hne : ((2 : FE), (6 : FE)) ≠ (1, 5) := by decide +kernel
    rcases this with ⟨k, -, hk⟩ | hk
    · exact hne hk.symm
    · exact hne hk
  · intro opts ch hpub hacc
    obtain ⟨rows, h1, h2, h3, h4, -⟩ := C29_product_not_anchored
      ⟨1, 8, 8, 1, 8, some 0, some 0, [], [(1, 5)], 1⟩ opts ch 1 (fun _ => (1, 5)) (fun _ => (2, 6))
      (fun _ => 8) (fun _ => 8) 0 0 (by decide) (by decide) rfl rfl le_rfl (by decide) hpub hacc
      (fun _ _ => Or.inl ⟨rfl, rfl⟩) rfl rfl rfl rfl
    exact ⟨rows, h1, h2, h3, h4⟩

/-! ## C30 -/

/-- C30, the part about the sorted offsets: in every accepted trace the sorted offset columns start at
the public minimum, end at the public maximum, and every entry lies between them. -/
theorem C30_sorted_offsets_bounded_partial (h : Accepted pi opts rows ch)
    (hP : 3 * rows.length + 2 ^ 16 ≤ P) :
    ∃ lo hi : UInt16, pi.rangeCheckMin = some lo ∧ pi.rangeCheckMax = some hi ∧
      (∀ k < 3 * rows.length,
        lo.toNat ≤ (sortedOffset (hasRcBuiltin pi) rows k).val ∧
        (sortedOffset (hasRcBuiltin pi) rows k).val ≤ hi.toNat) ∧
      ((List.range (3 * rows.length)).map fun k =>
        ch.zRangeCheck - sortedOffset (hasRcBuiltin pi) rows k).prod =
      ((List.range (3 * rows.length)).map fun k => ch.zRangeCheck - offset rows k).prod := by
  obtain ⟨⟨lo, hi, he⟩, -⟩ := h.parts
  refine ⟨lo, hi, he.min, he.max, fun k hk => sorted_bounds h hP he k hk, ?_⟩
  obtain ⟨q, hq1, hq2, hq3⟩ := offset_product h
  have hpos := h.pos
  rw [hq1, mul_one] at hq3
  have := chain_product (N := 3 * rows.length)
    (num := fun k => ch.zRangeCheck - sortedOffset (hasRcBuiltin pi) rows k)
    (den := fun k => ch.zRangeCheck - offset rows k) (q := q) hq3 hq2 (3 * rows.length - 1) (by omega)
  rwa [hq1, mul_one, show 3 * rows.length - 1 + 1 = 3 * rows.length by omega] at this

/-- The positions at which a sequence increases. -/
noncomputable def increases (s : Nat → FE) (N : Nat) : Finset Nat :=
  (Finset.range N).filter fun k => s (k + 1) ≠ s k

/-- A staircase is determined by its first value and the positions at which it increases. -/
theorem staircase_ext {s t : Nat → FE} {N : Nat} (h0 : s 0 = t 0)
    (hs : ∀ k, k + 1 < N → s (k + 1) = s k ∨ s (k + 1) = s k + 1)
    (ht : ∀ k, k + 1 < N → t (k + 1) = t k ∨ t (k + 1) = t k + 1)
    (h : increases s (N - 1) = increases t (N - 1)) (k : Nat) (hk : k < N) : s k = t k := by
  induction k with
  | zero => exact h0
  | succ k ih =>
    have e := ih (by omega)
    have hiff : s (k + 1) ≠ s k ↔ t (k + 1) ≠ t k := by
      have := Finset.ext_iff.1 h k
      simpa [increases, show k < N - 1 by omega] using this
    by_cases hc : s (k + 1) = s k
    · have hd : t (k + 1) = t k := by
        by_contra hd; exact (hiff.2 hd) hc
      rw [hc, hd, e]
    · have hd : t (k + 1) ≠ t k := hiff.1 hc
      rw [(hs k hk).resolve_left hc, (ht k hk).resolve_left hd, e]

/-- What C30 keeps: if, for the same offsets, accepted traces exist for many challenges `z` (their other
columns, including the sorted offsets, may depend on the challenge), then every offset lies between the
public bounds; in particular it is a 16-bit value. Missing: for a single challenge this fails
(`C30_fails`), and the number of challenges needed grows with the number of possible sorted
columns. -/
theorem C30_offsets_range_checked_partial (pi : PublicInputs) (opts : ProofOptions) (n : Nat)
    (hP : 3 * n + 2 ^ 16 ≤ P) (off : Nat → FE) (Z : Finset FE) (rows : FE → List (List FE))
    (ch : FE → RAPChallenges FE) (hZ : 2 ^ (3 * n - 1) * (3 * n) < Z.card)
    (hacc : ∀ z ∈ Z, Accepted pi opts (rows z) (ch z) ∧ (ch z).zRangeCheck = z ∧
      (rows z).length = n ∧ ∀ k < 3 * n, offset (rows z) k = off k) :
    ∃ lo hi : UInt16, pi.rangeCheckMin = some lo ∧ pi.rangeCheckMax = some hi ∧
      ∀ k < 3 * n, lo.toNat ≤ (off k).val ∧ (off k).val ≤ hi.toNat := by
  have hmaps : ∀ z ∈ Z, increases (sortedOffset (hasRcBuiltin pi) (rows z)) (3 * n - 1) ∈
      (Finset.range (3 * n - 1)).powerset :=
    fun z _ => Finset.mem_powerset.2 (Finset.filter_subset _ _)
  obtain ⟨t, -, ht⟩ := Finset.exists_lt_card_fiber_of_mul_lt_card_of_maps_to hmaps
    (n := 3 * n) (by rw [Finset.card_powerset, Finset.card_range]; exact hZ)
  set Z' := Z.filter fun z => increases (sortedOffset (hasRcBuiltin pi) (rows z)) (3 * n - 1) = t with hZ'
  obtain ⟨z₀, hz₀⟩ : Z'.Nonempty := Finset.card_pos.1 (by omega)
  have hm : ∀ z ∈ Z', z ∈ Z ∧ increases (sortedOffset (hasRcBuiltin pi) (rows z)) (3 * n - 1) = t :=
    fun z hz => Finset.mem_filter.1 hz
  obtain ⟨a0, -, hn0, hoff0⟩ := hacc z₀ (hm z₀ hz₀).1
  obtain ⟨lo, hi, hlo, hhi, hb, -⟩ := C30_sorted_offsets_bounded_partial a0 (by rw [hn0]; exact hP)
  rw [hn0] at hb
  refine ⟨lo, hi, hlo, hhi, ?_⟩
  have hfirst : ∀ z ∈ Z, sortedOffset (hasRcBuiltin pi) (rows z) 0 = (lo.toNat : FE) := by
    intro z hz
    obtain ⟨⟨lo', hi', he⟩, -⟩ := (hacc z hz).1.parts
    have : lo' = lo := Option.some.inj (he.min.symm.trans hlo)
    subst this
    have := he.rcFirst
    simpa [sortedOffset] using this
  have hsame : ∀ z ∈ Z', ∀ k < 3 * n, sortedOffset (hasRcBuiltin pi) (rows z) k
      = sortedOffset (hasRcBuiltin pi) (rows z₀) k := by
    intro z hz k hk
    obtain ⟨az, -, hnz, -⟩ := hacc z (hm z hz).1
    refine staircase_ext (N := 3 * n) ?_ (fun k hk => offset_sorted_step az k (by rw [hnz]; exact hk))
      (fun k hk => offset_sorted_step a0 k (by rw [hn0]; exact hk)) ?_ k hk
    · rw [hfirst z (hm z hz).1, hfirst z₀ (hm z₀ hz₀).1]
    · rw [(hm z hz).2, (hm z₀ hz₀).2]
  have hperm : ((List.range (3 * n)).map (sortedOffset (hasRcBuiltin pi) (rows z₀))).Perm
      ((List.range (3 * n)).map off) := by
    refine perm_of_products (by simp) Z' (by simpa using ht) fun z hz => ?_
    obtain ⟨az, hcz, hnz, hoz⟩ := hacc z (hm z hz).1
    obtain ⟨-, -, -, -, -, hprod⟩ := C30_sorted_offsets_bounded_partial az (by rw [hnz]; exact hP)
    rw [hcz, hnz] at hprod
    rw [List.map_map, List.map_map]
    have e1 : (List.range (3 * n)).map ((fun x => z - x) ∘ sortedOffset (hasRcBuiltin pi) (rows z₀))
        = (List.range (3 * n)).map fun k => z - sortedOffset (hasRcBuiltin pi) (rows z) k := by
      refine List.map_congr_left fun k hk => ?_
      rw [hsame z hz k (List.mem_range.1 hk)]; rfl
    have e2 : (List.range (3 * n)).map ((fun x => z - x) ∘ off)
        = (List.range (3 * n)).map fun k => z - offset (rows z) k := by
      refine List.map_congr_left fun k hk => ?_
      rw [hoz k (List.mem_range.1 hk)]; rfl
    rw [e1, e2, hprod]
  intro k hk
  obtain ⟨j, hj, hjk⟩ := List.mem_map.1
    (hperm.mem_iff.2 (List.mem_map.2 ⟨k, List.mem_range.2 hk, rfl⟩))
  rw [← hjk]
  exact hb j (List.mem_range.1 hj)

/-- The hypotheses of `C30_offsets_range_checked_partial` hold for the offsets 0, 1, 2, the bounds 0 and
2, and all challenges. -/
example : ∃ (pi : PublicInputs) (opts : ProofOptions) (off : Nat → FE) (Z : Finset FE)
    (rows : FE → List (List FE)) (ch : FE → RAPChallenges FE),
    3 * 1 + 2 ^ 16 ≤ P ∧ off 2 = 2 ∧ 2 ^ (3 * 1 - 1) * (3 * 1) < Z.card ∧
    ∀ z ∈ Z, Accepted pi opts (rows z) (ch z) ∧ (ch z).zRangeCheck = z ∧
      (rows z).length = 1 ∧ ∀ k < 3 * 1, offset (rows z) k = off k := by
  have hex : ∀ z : FE, ∃ rows, Accepted ⟨1, 8, 8, 1, 8, some 0, some 2, [], [], 1⟩ ⟨4, 3, 3, 1⟩ rows
      ⟨2, 300, z⟩ ∧ rows.length = 1 ∧ ∀ k < 3 * 1, offset rows k = stair 0 2 k := by
    intro z
    obtain ⟨rows, h1, h2, -, -, h3, -⟩ := forge_rc ⟨1, 8, 8, 1, 8, some 0, some 2, [], [], 1⟩
      ⟨4, 3, 3, 1⟩ ⟨2, 300, z⟩ 1 (fun _ => (1, 5)) (fun _ => (2, 6)) (fun _ => 8) (fun _ => 8)
      (stair 0 2) (stair 0 2) (fun _ => 1) 0 2 (by decide) (by decide) rfl rfl
      (fun k _ => stair_step 0 2 k) (by simp [stair]) (by simp [stair]) (fun _ _ => rfl) rfl rfl
      (by simp [pubProd]) (fun _ _ => Or.inl ⟨rfl, rfl⟩)
      (by
        intro k _ _
        have h : (300 : FE) ≠ 1 + 2 * 5 := by decide +kernel
        exact h) rfl rfl rfl rfl
    exact ⟨rows, h2, h1, h3⟩
  choose f hf using hex
  refine ⟨⟨1, 8, 8, 1, 8, some 0, some 2, [], [], 1⟩, ⟨4, 3, 3, 1⟩, stair 0 2, Finset.univ, f,
    fun z => ⟨2, 300, z⟩, (lt_trans (by norm_num) P_gt).le, by simp [stair], ?_,
    fun z _ => ⟨(hf z).1, rfl, (hf z).2⟩⟩
  rw [Finset.card_univ, ZMod.card]
  exact lt_trans (by norm_num) P_gt

/-- C30 is false for a single challenge: an accepted trace whose public bounds are 0 and 1 has an offset
that is not even a 16-bit value. -/
theorem C30_fails : ∃ (pi : PublicInputs) (opts : ProofOptions) (rows : List (List FE))
    (ch : RAPChallenges FE), Accepted pi opts rows ch ∧ pi.rangeCheckMin = some 0 ∧
      pi.rangeCheckMax = some 1 ∧ ∃ k < 3 * rows.length, 2 ^ 16 ≤ (offset rows k).val := by
  have h4 : (4 : FE) ≠ 0 := by decide +kernel
  have h2 : (2 : FE) ≠ 0 := by decide +kernel
  obtain ⟨rows, hl, hacc, -, -, hoff, -⟩ := forge_rc
    ⟨0, 0, 0, 0, 0, some 0, some 1, [], [], 1⟩ ⟨4, 3, 3, 1⟩ ⟨2, 300, 2⟩ 2 (fun _ => (0, 0))
    (fun _ => (0, 0)) (fun _ => 0) (fun _ => 0) (fun k => if k = 5 then 7 / 4 else 0)
    (fun k => if k < 3 then 0 else 1)
    (fun k => if k < 3 then 1 else if k = 3 then 2 else if k = 4 then 4 else 1) 0 1
    (by decide) (by decide) rfl rfl
    (by
      intro k hk
      have : k = 0 ∨ k = 1 ∨ k = 2 ∨ k = 3 ∨ k = 4 := by omega
      rcases this with rfl | rfl | rfl | rfl | rfl <;> norm_num)
    (by simp) (by simp)
    (by
      intro k hk
      have : k = 0 ∨ k = 1 ∨ k = 2 ∨ k = 3 ∨ k = 4 := by omega
      rcases this with rfl | rfl | rfl | rfl | rfl
      · norm_num
      · norm_num
      · norm_num
      · norm_num
      · simp only [if_true, show ¬ (4 + 1 < 3) by omega, show ¬ (4 + 1 = 3) by omega,
          show ¬ (4 + 1 = 4) by omega, show ¬ (4 < 3) by omega, show ¬ (4 = 3) by omega, if_false]
        field_simp; norm_num)
    (by norm_num) (by norm_num) (by simp [pubProd])
    (fun _ _ => Or.inl ⟨rfl, rfl⟩)
    (by
      intro k _ _
      have : (300 : FE) ≠ 0 := by decide +kernel
      simpa [keyOf] using this) rfl rfl rfl rfl
  refine ⟨_, _, rows, _, hacc, rfl, rfl, 5, by omega, ?_⟩
  rw [hoff 5 (by omega)]
  have hx : ∀ x : FE, x * 4 = 7 → 2 ^ 16 ≤ x.val := by
    intro x hx
    by_contra hlt
    have hlt' : x.val < 2 ^ 16 := by omega
    have h1 : ((x.val * 4 : Nat) : FE) = ((7 : Nat) : FE) := by
      push_cast; rw [ZMod.natCast_zmod_val]; exact hx
    have h2 := congrArg ZMod.val h1
    have hP : 2 ^ 20 < P := lt_trans (by norm_num) P_gt
    rw [ZMod.val_natCast_of_lt (by omega), ZMod.val_natCast_of_lt (by omega)] at h2
    omega
  apply hx
  rw [if_pos rfl]; field_simp

/-! ## C31 -/

/-- Eight 16-bit limbs make a value below `2 ^ 128`. -/
theorem limbs_lt (x : Nat → Nat) (h : ∀ k < 8, x k < 2 ^ 16) :
    ((List.range 8).map fun k => x k * 2 ^ (16 * k)).sum < 2 ^ 128 := by
  have key : ∀ n ≤ 8, ((List.range n).map fun k => x k * 2 ^ (16 * k)).sum < 2 ^ (16 * n) := by
    intro n
    induction n with
    | zero => intro _; simp
    | succ n ih =>
      intro hn
      rw [List.range_succ, List.map_append, List.sum_append]
      have h1 := ih (by omega)
      have h2 := h n (by omega)
      simp only [List.map_cons, List.map_nil, List.sum_cons, List.sum_nil, add_zero]
      rw [Nat.mul_add, pow_add]
      generalize 2 ^ (16 * n) = y at *
      have : (x n + 1) * y ≤ 2 ^ 16 * y := Nat.mul_le_mul_right _ (by omega)
      rw [Nat.add_mul, one_mul, Nat.mul_comm (2 ^ 16) y] at this
      omega
  exact key 8 le_rfl

/-- The builtin constraint as a sum over the limbs. -/
theorem builtin_sum (f : Nat → FE) (hb : rangeCheckBuiltin f = 0) : f RC_VALUE =
      ((((List.range 8).map fun k => (f (RC_0 + k)).val * 2 ^ (16 * k)).sum : Nat) : FE) := by
  have e : rangeCheckBuiltin f =
      ((List.range 8).map fun k => f (RC_0 + k) * 2 ^ (16 * k)).sum - f RC_VALUE := by
    simp [rangeCheckBuiltin, List.range_succ]
    ring
  rw [e, sub_eq_zero] at hb
  rw [← hb, Nat.cast_list_sum, List.map_map]
  refine congrArg List.sum (List.map_congr_left fun k _ => ?_)
  simp only [Function.comp]
  rw [Nat.cast_mul, ZMod.natCast_zmod_val, Nat.cast_pow]; rfl

/-- What C31 keeps: with the range-check builtin, every row's value is the sum of its eight limbs; if the
limbs are 16-bit values, it is below `2 ^ 128`. Missing: nothing checks the limbs
(`C31_builtin_values_unbounded`). -/
theorem C31_builtin_values_partial (h : Accepted pi opts rows ch) (hrc : hasRcBuiltin pi = true)
    (i : Nat) (hi : i < rows.length) (hlimbs : ∀ k < 8, (cell rows i (RC_0 + k)).val < 2 ^ 16) :
    (cell rows i RC_VALUE).val
      = ((List.range 8).map fun k => (cell rows i (RC_0 + k)).val * 2 ^ (16 * k)).sum ∧
    (cell rows i RC_VALUE).val < 2 ^ 128 := by
  have hb := h.parts.2.builtin hrc i hi
  have hsum := limbs_lt (fun k => (cell rows i (RC_0 + k)).val) hlimbs
  have hP : 2 ^ 128 < P := lt_trans (by norm_num) P_gt
  have e : (cell rows i RC_VALUE).val
      = ((List.range 8).map fun k => (cell rows i (RC_0 + k)).val * 2 ^ (16 * k)).sum := by
    rw [builtin_sum _ hb, ZMod.val_natCast_of_lt (lt_trans hsum hP)]
  exact ⟨e, by rw [e]; exact hsum⟩

/-- The builtin columns of an accepted trace can be replaced by a value in the first limb. -/
theorem builtin_replaced (h : Accepted pi opts rows ch) (hrc : hasRcBuiltin pi = true)
    (v : Nat → FE) :
    ∃ rows', rows'.length = rows.length ∧ Accepted pi opts rows' ch ∧
      ∀ i < rows.length, (∀ k < 8, cell rows' i (RC_0 + k) = if k = 0 then v i else 0) ∧
        cell rows' i RC_VALUE = v i ∧
        ∀ c, c < RC_0 ∨ RC_VALUE < c → cell rows' i c = cell rows i c := by
  obtain ⟨⟨lo, hi, he⟩, hp⟩ := h.parts
  let f : Nat → Nat → FE := fun i c =>
    if c = 34 then v i else if c = 42 then v i else if 34 < c ∧ c < 42 then 0 else cell rows i c
  have hw : traceColumns (hasRcBuiltin pi) = 61 := by rw [hrc]; rfl
  have h0 : ∀ i c, traceColumns (hasRcBuiltin pi) ≤ c → f i c = 0 := by
    intro i c hc
    have hc' := hc
    rw [hw] at hc
    simp only [f]
    rw [if_neg (by omega), if_neg (by omega), if_neg (by omega)]
    exact cell_outside h.rect i c hc'
  have hsame : ∀ i c, c < 34 ∨ 42 < c → f i c = cell rows i c := by
    intro i c hc
    simp only [f]
    rw [if_neg (by omega), if_neg (by omega), if_neg (by omega)]
  have hb0 : builtinOffset (hasRcBuiltin pi) = 0 := by rw [hrc]; rfl
  have hP : Parts (hasRcBuiltin pi) ch rows.length f := by
    refine ⟨?_, ?_, ?_, ?_, ?_, ?_, ?_⟩
    · intro i hi j hj; rw [hsame i j (by omega)]; exact hp.flags i hi j hj
    · intro i hi; rw [hsame i 15 (by omega)]; exact hp.c15 i hi
    · intro i hi
      rw [execPart_congr (fun c hc => hsame i c (Or.inl hc)) (fun c hc => hsame _ c (Or.inl hc))]
      exact hp.exec i hi
    · intro i hi
      rw [hrc, memory_congr_rc (fun c hc => hsame i c (Or.inr hc)) (fun c hc => hsame _ c (Or.inr hc)),
        ← hrc]
      exact hp.mem i hi
    · intro i hi
      rw [hrc, permutation_congr_rc ch (hsame i) (hsame _), ← hrc]
      exact hp.perm i hi
    · intro i hi
      rw [hrc, rangeCheck_congr_rc ch (hsame i) (hsame _), ← hrc]
      exact hp.rc i hi
    · intro _ i hi
      unfold rangeCheckBuiltin; unfold_cols
      simp [f]
  have hE : Ends pi ch rows.length f lo hi := by
    refine ⟨he.steps, he.rows, he.min, he.max, he.prod, ?_, ?_, ?_, ?_, ?_, ?_, ?_, ?_⟩
    · rw [hsame _ _ (by omega)]; exact he.pcInit
    · rw [hsame _ _ (by omega)]; exact he.apInit
    · rw [hsame _ _ (by omega)]; exact he.pcFinal
    · rw [hsame _ _ (by omega)]; exact he.apFinal
    · rw [hsame _ _ (by rw [hb0]; omega)]; exact he.perm
    · rw [hsame _ _ (by rw [hb0]; omega)]; exact he.rcPerm
    · rw [hsame _ _ (by rw [hb0]; omega)]; exact he.rcFirst
    · rw [hsame _ _ (by rw [hb0]; omega)]; exact he.rcLast
  refine ⟨table rows.length (traceColumns (hasRcBuiltin pi)) f, table_length _ _ _,
    accepted_table h0 h.steps hE hP, ?_⟩
  intro i hi
  rw [cell_table hi (h0 i)]
  refine ⟨fun k hk => ?_, by simp [f], fun c hc => hsame i c hc⟩
  simp only [f]
  unfold_cols
  by_cases hk0 : k = 0
  · rw [if_pos (by omega), if_pos hk0]
  · rw [if_neg (by omega), if_neg (by omega), if_pos (by omega), if_neg hk0]

/-- C31 is false: in any accepted trace with the range-check builtin, the builtin values can be replaced
by arbitrary field elements, with every cell outside the builtin columns unchanged. -/
theorem C31_builtin_values_unbounded (h : Accepted pi opts rows ch) (hrc : hasRcBuiltin pi = true)
    (v : Nat → FE) :
    ∃ rows', rows'.length = rows.length ∧ Accepted pi opts rows' ch ∧
      ∀ i < rows.length, cell rows' i RC_VALUE = v i ∧
        ∀ c, c < RC_0 ∨ RC_VALUE < c → cell rows' i c = cell rows i c := by
  obtain ⟨rows', hl, hacc, hc⟩ := builtin_replaced h hrc v
  exact ⟨rows', hl, hacc, fun i hi => (hc i hi).2⟩

/-- Accepted traces with the range-check builtin exist, so the two theorems about it apply; their limbs
can be zero. -/
theorem C31_fails : ∃ (pi : PublicInputs) (opts : ProofOptions) (rows : List (List FE))
    (ch : RAPChallenges FE), Accepted pi opts rows ch ∧ hasRcBuiltin pi = true ∧
      ∃ i < rows.length, 2 ^ 128 ≤ (cell rows i RC_VALUE).val := by
  obtain ⟨rows, hl, hacc, -⟩ := C29_product_not_anchored
    ⟨1, 8, 8, 1, 8, some 0, some 0, [(.rangeCheck, (20, 21))], [(1, 5)], 1⟩ ⟨4, 3, 3, 1⟩ ⟨2, 300, 5⟩ 1
    (fun _ => (1, 5)) (fun _ => (2, 6)) (fun _ => 8) (fun _ => 8) 0 0 (by decide) (by decide) rfl rfl
    le_rfl (by decide)
    (by
      intro e he
      have h : (300 : FE) ≠ 1 + 2 * 5 := by decide +kernel
      obtain rfl : e = (1, 5) := by simpa using he
      exact h)
    (by
      intro k _
      have h : (300 : FE) ≠ 1 + 2 * 5 := by decide +kernel
      exact h)
    (fun _ _ => Or.inl ⟨rfl, rfl⟩) rfl rfl rfl rfl
  obtain ⟨rows', hl', hacc', hv⟩ := C31_builtin_values_unbounded hacc rfl fun _ => ((2 ^ 128 : Nat) : FE)
  refine ⟨_, _, rows', _, hacc', rfl, 0, by omega, ?_⟩
  rw [(hv 0 (by omega)).1, ZMod.val_natCast_of_lt (lt_trans (by norm_num) P_gt)]

/-- The hypotheses of `C31_builtin_values_partial` hold for a trace of two rows whose builtin value is 300, which
the theorem bounds. -/
example : ∃ (pi : PublicInputs) (opts : ProofOptions) (rows : List (List FE)) (ch : RAPChallenges FE),
    Accepted pi opts rows ch ∧ hasRcBuiltin pi = true ∧ 0 < rows.length ∧
      (∀ k < 8, (cell rows 0 (RC_0 + k)).val < 2 ^ 16) ∧ cell rows 0 RC_VALUE = 300 ∧
      (cell rows 0 RC_VALUE).val < 2 ^ 128 := by
  obtain ⟨rows, hl, hacc, -⟩ := C29_product_not_anchored
    ⟨1, 8, 8, 1, 8, some 0, some 0, [(.rangeCheck, (20, 21))], [(1, 5)], 1⟩ ⟨4, 3, 3, 1⟩ ⟨2, 300, 5⟩ 1
    (fun _ => (1, 5)) (fun _ => (2, 6)) (fun _ => 8) (fun _ => 8) 0 0 (by decide) (by decide) rfl rfl
    le_rfl (by decide)
    (by
      intro e he
      have h : (300 : FE) ≠ 1 + 2 * 5 := by decide +kernel
      obtain rfl : e = (1, 5) := by simpa using he
      exact h)
    (by
      intro k _
      have h : (300 : FE) ≠ 1 + 2 * 5 := by decide +kernel
      exact h)
    (fun _ _ => Or.inl ⟨rfl, rfl⟩) rfl rfl rfl rfl
  obtain ⟨rows', hl', hacc', hv⟩ := builtin_replaced hacc rfl fun _ => 300
  have hlimbs : ∀ k < 8, (cell rows' 0 (RC_0 + k)).val < 2 ^ 16 := by
    intro k hk
    rw [(hv 0 (by omega)).1 k hk]
    split
    · decide +kernel
    · decide +kernel
  exact ⟨_, _, rows', _, hacc', rfl, by omega, hlimbs, (hv 0 (by omega)).2.1,
    (C31_builtin_values_partial hacc' rfl 0 (by omega) hlimbs).2⟩

/-! ## C32 -/

/-- What C32 keeps: an accepted trace starts at the public initial `pc` and `ap`, and its last claimed
step is at the public final `pc` and `ap`. Missing: `fp` (`C32_fp_not_pinned`). -/
theorem C32_boundary_partial (h : Accepted pi opts rows ch) :
    0 < pi.numSteps ∧
    (regsAt rows 0).pc = pi.pcInit ∧ (regsAt rows 0).ap = pi.apInit ∧
    (regsAt rows (pi.numSteps - 1)).pc = pi.pcFinal ∧
    (regsAt rows (pi.numSteps - 1)).ap = pi.apFinal := by
  obtain ⟨⟨lo, hi, he⟩, -⟩ := h.parts
  exact ⟨Nat.pos_of_ne_zero he.steps, he.pcInit, he.apInit, he.pcFinal, he.apFinal⟩

/-- The hypothesis of `C32_boundary_partial` holds for `simple_program`, which runs from `pc = 1` to
`pc = 5`. -/
example : Accepted Examples.main0.2 ⟨4, 3, 3, 1⟩ exampleRows Examples.ch0 ∧
    Examples.main0.2.pcInit = 1 ∧ Examples.main0.2.pcFinal = 5 :=
  ⟨example_accepted, by decide +kernel, by decide +kernel⟩

/-- C32 is false about `fp`: in any accepted trace the whole `fp` column can be replaced by anything
(with the selectors cleared) and the trace is accepted for the same public inputs. -/
theorem C32_fp_not_pinned (h : Accepted pi opts rows ch) (fp : Nat → FE) :
    ∃ rows', rows'.length = rows.length ∧ Accepted pi opts rows' ch ∧
      ∀ i < rows.length, (regsAt rows' i).pc = (regsAt rows i).pc ∧
        (regsAt rows' i).ap = (regsAt rows i).ap ∧ (regsAt rows' i).fp = fp i := by
  obtain ⟨rows', hl, hacc, hc⟩ := C26_selector_not_enforced h (fun i => (regsAt rows i).ap) fp
  obtain ⟨-, -, hap, -, hap'⟩ := C32_boundary_partial h
  simp only [hap, hap'] at hacc
  refine ⟨rows', hl, hacc, fun i hi => ⟨?_, (hc i hi).1, (hc i hi).2.1⟩⟩
  exact (hc i hi).2.2.2 FRAME_PC (by decide) (by decide) (by decide)

/-- The hypothesis of `C32_fp_not_pinned` holds for the trace of `simple_program`: its `fp` can be 42 throughout. -/
example : ∃ rows', Accepted Examples.main0.2 ⟨4, 3, 3, 1⟩ rows' Examples.ch0 ∧ (regsAt rows' 0).fp = 42 := by
  obtain ⟨rows', -, hacc, h⟩ := C32_fp_not_pinned example_accepted fun _ => 42
  exact ⟨rows', hacc, (h 0 (by decide +kernel)).2.2⟩

end Verif.Props
