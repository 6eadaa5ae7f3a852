import Verif.Lemmas.CairoSound

/-! Traces that satisfy the Cairo AIR without describing a run. -/

namespace Verif.CairoAir
open Spec

/-- The key of a memory access under the challenges. -/
def keyOf (ch : RAPChallenges FE) (a : FE × FE) : FE := a.1 + ch.alphaMemory * a.2

/-- The running product that ends at `v` after `N` entries, computed backwards. -/
def backProduct (num den : Nat → FE) (v : FE) (N : Nat) (k : Nat) : FE :=
  v * ((List.range (N - 1 - k)).map fun j => num (k + 1 + j) / den (k + 1 + j)).prod

theorem backProduct_last (num den : Nat → FE) (v : FE) (N : Nat) :
    backProduct num den v N (N - 1) = v := by simp [backProduct]

theorem backProduct_step (num den : Nat → FE) (v : FE) (N k : Nat) (hk : k + 1 < N)
    (hd : den (k + 1) ≠ 0) :
    num (k + 1) * backProduct num den v N (k + 1) = den (k + 1) * backProduct num den v N k := by
  unfold backProduct
  rw [show N - 1 - k = (N - 1 - (k + 1)) + 1 by omega, List.range_succ_eq_map, List.map_cons,
    List.prod_cons, List.map_map]
  have e : ((fun j => num (k + 1 + j) / den (k + 1 + j)) ∘ Nat.succ)
      = fun j => num (k + 1 + 1 + j) / den (k + 1 + 1 + j) := by
    funext j; simp only [Function.comp, Nat.succ_eq_add_one]
    rw [show k + 1 + (j + 1) = k + 1 + 1 + j by omega]
  rw [e, Nat.add_zero]
  generalize (List.map (fun j => num (k + 1 + 1 + j) / den (k + 1 + 1 + j))
    (List.range (N - 1 - (k + 1)))).prod = r
  field_simp

/-- The offsets of the forged trace: a staircase from `lo` to `hi`. -/
def stair (lo hi : UInt16) (k : Nat) : FE := ((min (lo.toNat + k) hi.toNat : Nat) : FE)

theorem stair_step (lo hi : UInt16) (k : Nat) :
    (stair lo hi k - stair lo hi (k + 1)) * (stair lo hi (k + 1) - stair lo hi k - 1) = 0 := by
  unfold stair
  rcases Nat.lt_or_ge (lo.toNat + k) hi.toNat with h | h
  · rw [Nat.min_eq_left (by omega), Nat.min_eq_left (by omega)]; push_cast; ring
  · rw [Nat.min_eq_right (by omega), Nat.min_eq_right (by omega)]; ring

/-- The cells of the forged trace, with the column numbers of the layout with the range-check
builtin. -/
def forgedCell (acc sorted : Nat → FE × FE) (p : Nat → FE) (ap fp : Nat → FE)
    (off soff q : Nat → FE) (i c : Nat) : FE :=
  if c = 17 then ap i
  else if c = 18 then fp i
  else if 19 ≤ c ∧ c < 23 then (acc (4 * i + (c - 19))).1
  else if 23 ≤ c ∧ c < 27 then (acc (4 * i + (c - 23))).2
  else if 27 ≤ c ∧ c < 30 then off (3 * i + (c - 27))
  else if 43 ≤ c ∧ c < 46 then soff (3 * i + (c - 43))
  else if 46 ≤ c ∧ c < 50 then (sorted (4 * i + (c - 46))).1
  else if 50 ≤ c ∧ c < 54 then (sorted (4 * i + (c - 50))).2
  else if 54 ≤ c ∧ c < 58 then p (4 * i + (c - 54))
  else if 58 ≤ c ∧ c < 61 then q (3 * i + (c - 58))
  else 0

/-- The forged cells in the layout of the trace. -/
def forged (hasRc : Bool) (acc sorted : Nat → FE × FE) (p : Nat → FE) (ap fp : Nat → FE)
    (off soff q : Nat → FE) (i c : Nat) : FE :=
  forgedCell acc sorted p ap fp off soff q i (if c < 34 then c else c + builtinOffset hasRc)

theorem forged_parts (hasRc : Bool) (ch : RAPChallenges FE) (n : Nat) (acc sorted : Nat → FE × FE)
    (p ap fp off soff q : Nat → FE)
    (hs : ∀ k, k + 1 < 4 * n → ((sorted k).1 - (sorted (k + 1)).1) *
        ((sorted (k + 1)).1 - (sorted k).1 - 1) = 0 ∧
      ((sorted k).2 - (sorted (k + 1)).2) * ((sorted (k + 1)).1 - (sorted k).1 - 1) = 0)
    (hp : ∀ k, k + 1 < 4 * n → (ch.zMemory - keyOf ch (sorted (k + 1))) * p (k + 1) =
      (ch.zMemory - keyOf ch (acc (k + 1))) * p k)
    (ho : ∀ k, k + 1 < 3 * n → (soff k - soff (k + 1)) * (soff (k + 1) - soff k - 1) = 0)
    (hq : ∀ k, k + 1 < 3 * n → (ch.zRangeCheck - soff (k + 1)) * q (k + 1) =
      (ch.zRangeCheck - off (k + 1)) * q k)
    (hq0 : (ch.zRangeCheck - soff 0) * q 0 = (ch.zRangeCheck - off 0) * q (3 * n - 1)) :
    Parts hasRc ch n (forged hasRc acc sorted p ap fp off soff q) := by
  refine ⟨?_, ?_, ?_, ?_, ?_, ?_, ?_⟩
  · intro i _ j hj
    have : forged hasRc acc sorted p ap fp off soff q i j = 0 := by
      unfold forged
      rw [if_pos (by omega)]
      unfold forgedCell
      rw [if_neg (by omega), if_neg (by omega), if_neg (by omega), if_neg (by omega),
        if_neg (by omega), if_neg (by omega), if_neg (by omega), if_neg (by omega),
        if_neg (by omega), if_neg (by omega)]
    rw [this]; ring
  · intro i _; simp [forged, forgedCell]
  · intro i _ k h1 h2 _
    exact execPart_sel _ _ (by simp [forged, forgedCell]) k h1 h2
  · intro i hi j hj hx
    have hj' : j = 0 ∨ j = 1 ∨ j = 2 ∨ j = 3 ∨ j = 4 ∨ j = 5 ∨ j = 6 ∨ j = 7 := by omega
    cases hasRc <;> unfold memoryIsIncreasing <;> unfold_cols
    all_goals
      rcases hj' with rfl | rfl | rfl | rfl | rfl | rfl | rfl | rfl
      · simpa [forged, forgedCell, builtinOffset, BUILTIN_OFFSET] using (hs (4 * i) (by omega)).1
      · simpa [forged, forgedCell, builtinOffset, BUILTIN_OFFSET] using (hs (4 * i + 1) (by omega)).1
      · simpa [forged, forgedCell, builtinOffset, BUILTIN_OFFSET] using (hs (4 * i + 2) (by omega)).1
      · have hlt := hx (by omega)
        rw [Nat.mod_eq_of_lt hlt]
        simpa [forged, forgedCell, builtinOffset, BUILTIN_OFFSET, Nat.mul_add]
          using (hs (4 * i + 3) (by omega)).1
      · simpa [forged, forgedCell, builtinOffset, BUILTIN_OFFSET] using (hs (4 * i) (by omega)).2
      · simpa [forged, forgedCell, builtinOffset, BUILTIN_OFFSET] using (hs (4 * i + 1) (by omega)).2
      · simpa [forged, forgedCell, builtinOffset, BUILTIN_OFFSET] using (hs (4 * i + 2) (by omega)).2
      · have hlt := hx (by omega)
        rw [Nat.mod_eq_of_lt hlt]
        simpa [forged, forgedCell, builtinOffset, BUILTIN_OFFSET, Nat.mul_add]
          using (hs (4 * i + 3) (by omega)).2
  · intro i hi j hj hx
    have hj' : j = 0 ∨ j = 1 ∨ j = 2 ∨ j = 3 := by omega
    cases hasRc <;> unfold permutationArgument <;> unfold_cols
    all_goals
      rcases hj' with rfl | rfl | rfl | rfl
      · simpa [forged, forgedCell, builtinOffset, BUILTIN_OFFSET, sub_eq_zero, keyOf]
          using hp (4 * i) (by omega)
      · simpa [forged, forgedCell, builtinOffset, BUILTIN_OFFSET, sub_eq_zero, keyOf]
          using hp (4 * i + 1) (by omega)
      · simpa [forged, forgedCell, builtinOffset, BUILTIN_OFFSET, sub_eq_zero, keyOf]
          using hp (4 * i + 2) (by omega)
      · have hlt := hx (by omega)
        rw [Nat.mod_eq_of_lt hlt]
        simpa [forged, forgedCell, builtinOffset, BUILTIN_OFFSET, sub_eq_zero, keyOf, Nat.mul_add]
          using hp (4 * i + 3) (by omega)
  · intro i hi j hj hx
    have hj' : j = 0 ∨ j = 1 ∨ j = 2 ∨ j = 3 ∨ j = 4 ∨ j = 5 := by omega
    cases hasRc <;> unfold permutationArgumentRangeCheck <;> unfold_cols
    all_goals
      rcases hj' with rfl | rfl | rfl | rfl | rfl | rfl
      · simpa [forged, forgedCell, builtinOffset, BUILTIN_OFFSET] using ho (3 * i) (by omega)
      · simpa [forged, forgedCell, builtinOffset, BUILTIN_OFFSET] using ho (3 * i + 1) (by omega)
      · have hlt := hx rfl
        rw [Nat.mod_eq_of_lt hlt]
        simpa [forged, forgedCell, builtinOffset, BUILTIN_OFFSET, Nat.mul_add]
          using ho (3 * i + 2) (by omega)
      · simpa [forged, forgedCell, builtinOffset, BUILTIN_OFFSET, sub_eq_zero]
          using hq (3 * i) (by omega)
      · simpa [forged, forgedCell, builtinOffset, BUILTIN_OFFSET, sub_eq_zero]
          using hq (3 * i + 1) (by omega)
      · by_cases hlt : i + 1 < n
        · rw [Nat.mod_eq_of_lt hlt]
          simpa [forged, forgedCell, builtinOffset, BUILTIN_OFFSET, sub_eq_zero, Nat.mul_add]
            using hq (3 * i + 2) (by omega)
        · rw [show i + 1 = n by omega, Nat.mod_self]
          rw [show 3 * n - 1 = 3 * i + 2 by omega] at hq0
          simpa [forged, forgedCell, builtinOffset, BUILTIN_OFFSET, sub_eq_zero] using hq0
  · rintro rfl i _
    unfold rangeCheckBuiltin; unfold_cols
    simp [forged, forgedCell, builtinOffset, BUILTIN_OFFSET]

/-- Any public inputs, any accesses, any sorted memory: there is an accepted trace. -/
theorem forge_rc (pi : PublicInputs) (opts : ProofOptions) (ch : RAPChallenges FE) (n : Nat)
    (acc sorted : Nat → FE × FE) (ap fp off soff q : Nat → FE) (lo hi : UInt16)
    (h1 : pi.numSteps ≠ 0) (h2 : pi.numSteps ≤ n) (hlo : pi.rangeCheckMin = some lo)
    (hhi : pi.rangeCheckMax = some hi)
    (ho : ∀ k, k + 1 < 3 * n → (soff k - soff (k + 1)) * (soff (k + 1) - soff k - 1) = 0)
    (ho0 : soff 0 = (lo.toNat : FE)) (hon : soff (3 * n - 1) = (hi.toNat : FE))
    (hq : ∀ k, k + 1 < 3 * n → (ch.zRangeCheck - soff (k + 1)) * q (k + 1) =
      (ch.zRangeCheck - off (k + 1)) * q k)
    (hq0 : (ch.zRangeCheck - soff 0) * q 0 = (ch.zRangeCheck - off 0) * q (3 * n - 1))
    (hqn : q (3 * n - 1) = 1)
    (hpub : pubProd pi ch ≠ 0)
    (hs : ∀ k, k + 1 < 4 * n → ((sorted (k + 1)).1 = (sorted k).1 ∧ (sorted (k + 1)).2 = (sorted k).2)
      ∨ (sorted (k + 1)).1 = (sorted k).1 + 1)
    (hz : ∀ k, 0 < k → k < 4 * n → ch.zMemory ≠ keyOf ch (acc k))
    (hpc : (acc 0).1 = pi.pcInit) (hpc' : (acc (4 * (pi.numSteps - 1))).1 = pi.pcFinal)
    (hap : ap 0 = pi.apInit) (hap' : ap (pi.numSteps - 1) = pi.apFinal) :
    ∃ rows, rows.length = n ∧ Accepted pi opts rows ch ∧
      (∀ k < 4 * n, access rows k = acc k) ∧
      (∀ k < 4 * n, sortedAccess (hasRcBuiltin pi) rows k = sorted k) ∧
      (∀ k < 3 * n, offset rows k = off k) ∧
      ∀ i < n, cell rows i FRAME_AP = ap i ∧ cell rows i FRAME_FP = fp i ∧
        cell rows i FRAME_SELECTOR = 0 := by
  set b := hasRcBuiltin pi with hb
  let p := backProduct (fun k => ch.zMemory - keyOf ch (sorted k))
    (fun k => ch.zMemory - keyOf ch (acc k))
    (ch.zMemory ^ pi.publicMemory.length * (pubProd pi ch)⁻¹) (4 * n)
  let f := forged b acc sorted p ap fp off soff q
  have hcol : traceColumns b = 61 - builtinOffset b := by cases b <;> rfl
  have h0 : ∀ i c, traceColumns b ≤ c → f i c = 0 := by
    intro i c hc
    have hb9 : builtinOffset b = 0 ∨ builtinOffset b = 9 := by cases b <;> simp [builtinOffset, BUILTIN_OFFSET]
    show forged b acc sorted p ap fp off soff q i c = 0
    unfold forged
    rw [hcol] at hc
    rw [if_neg (by omega)]
    unfold forgedCell
    generalize builtinOffset b = o at *
    rw [if_neg (by omega), if_neg (by omega), if_neg (by omega), if_neg (by omega),
        if_neg (by omega), if_neg (by omega), if_neg (by omega), if_neg (by omega),
        if_neg (by omega), if_neg (by omega)]
  have hp : Parts b ch n f := by
    apply forged_parts
    · intro k hk
      rcases hs k hk with ⟨e1, e2⟩ | e1
      · rw [e1, e2]; constructor <;> ring
      · rw [e1]; constructor <;> ring
    · intro k hk
      exact backProduct_step (fun k => ch.zMemory - keyOf ch (sorted k))
        (fun k => ch.zMemory - keyOf ch (acc k)) _ (4 * n) k hk
        (sub_ne_zero.2 (hz (k + 1) (by omega) hk))
    · exact ho
    · exact hq
    · exact hq0
  have he : Ends pi ch n f lo hi := by
    refine ⟨h1, by omega, hlo, hhi, hpub, ?_, ?_, ?_, ?_, ?_, ?_, ?_, ?_⟩
    · simpa [f, forged, forgedCell] using hpc
    · simpa [f, forged, forgedCell] using hap
    · simpa [f, forged, forgedCell] using hpc'
    · simpa [f, forged, forgedCell] using hap'
    · rw [← hb]
      have e : f (n - 1) (57 - builtinOffset b) = p (4 * (n - 1) + 3) := by
        simp only [f]
        generalize b = b'
        cases b' <;> simp [forged, forgedCell, builtinOffset, BUILTIN_OFFSET]
      rw [e, show 4 * (n - 1) + 3 = 4 * n - 1 by omega]
      exact backProduct_last _ _ _ _
    · rw [← hb]
      have e : f (n - 1) (60 - builtinOffset b) = q (3 * (n - 1) + 2) := by
        simp only [f]
        generalize b = b'
        cases b' <;> simp [forged, forgedCell, builtinOffset, BUILTIN_OFFSET]
      rw [e, show 3 * (n - 1) + 2 = 3 * n - 1 by omega, hqn]
    · rw [← hb]
      have e : f 0 (43 - builtinOffset b) = soff 0 := by
        simp only [f]
        generalize b = b'
        cases b' <;> simp [forged, forgedCell, builtinOffset, BUILTIN_OFFSET]
      rw [e, ho0]
    · rw [← hb]
      have e : f (n - 1) (45 - builtinOffset b) = soff (3 * (n - 1) + 2) := by
        simp only [f]
        generalize b = b'
        cases b' <;> simp [forged, forgedCell, builtinOffset, BUILTIN_OFFSET]
      rw [e, show 3 * (n - 1) + 2 = 3 * n - 1 by omega, hon]
  have hcell : ∀ i < n, cell (table n (traceColumns b) f) i = f i := fun i hi =>
    cell_table hi (h0 i)
  refine ⟨table n (traceColumns b) f, table_length _ _ _, accepted_table h0 h2 he hp, ?_, ?_, ?_, ?_⟩
  · intro k hk
    unfold access
    rw [hcell _ (by omega)]
    have hr : k % 4 = 0 ∨ k % 4 = 1 ∨ k % 4 = 2 ∨ k % 4 = 3 := by omega
    have e : acc k = acc (4 * (k / 4) + k % 4) := by rw [Nat.div_add_mod]
    rw [e]
    rcases hr with hr | hr | hr | hr <;> rw [hr] <;> unfold_cols <;> simp [f, forged, forgedCell]
  · intro k hk
    unfold sortedAccess
    rw [hcell _ (by omega)]
    have hr : k % 4 = 0 ∨ k % 4 = 1 ∨ k % 4 = 2 ∨ k % 4 = 3 := by omega
    have e : sorted k = sorted (4 * (k / 4) + k % 4) := by rw [Nat.div_add_mod]
    rw [e]
    simp only [f]
    generalize b = b'
    rcases hr with hr | hr | hr | hr <;> rw [hr] <;> cases b' <;> unfold_cols <;>
      simp [forged, forgedCell, builtinOffset, BUILTIN_OFFSET]
  · intro k hk
    unfold offset
    rw [hcell _ (by omega)]
    have hr : k % 3 = 0 ∨ k % 3 = 1 ∨ k % 3 = 2 := by omega
    have e : off k = off (3 * (k / 3) + k % 3) := by rw [Nat.div_add_mod]
    rw [e]
    rcases hr with hr | hr | hr <;> rw [hr] <;> unfold_cols <;> simp [f, forged, forgedCell]
  · intro i hi
    rw [hcell i hi]
    simp [f, forged, forgedCell, FRAME_AP, FRAME_FP, FRAME_SELECTOR]

/-- Any public inputs, any accesses, any sorted memory: there is an accepted trace. -/
theorem forge (pi : PublicInputs) (opts : ProofOptions) (ch : RAPChallenges FE) (n : Nat)
    (acc sorted : Nat → FE × FE) (ap fp : Nat → FE) (lo hi : UInt16)
    (h1 : pi.numSteps ≠ 0) (h2 : pi.numSteps ≤ n) (hlo : pi.rangeCheckMin = some lo)
    (hhi : pi.rangeCheckMax = some hi) (hr : lo.toNat ≤ hi.toNat) (hr' : hi.toNat < lo.toNat + 3 * n)
    (hpub : pubProd pi ch ≠ 0)
    (hs : ∀ k, k + 1 < 4 * n → ((sorted (k + 1)).1 = (sorted k).1 ∧ (sorted (k + 1)).2 = (sorted k).2)
      ∨ (sorted (k + 1)).1 = (sorted k).1 + 1)
    (hz : ∀ k, 0 < k → k < 4 * n → ch.zMemory ≠ keyOf ch (acc k))
    (hpc : (acc 0).1 = pi.pcInit) (hpc' : (acc (4 * (pi.numSteps - 1))).1 = pi.pcFinal)
    (hap : ap 0 = pi.apInit) (hap' : ap (pi.numSteps - 1) = pi.apFinal) :
    ∃ rows, rows.length = n ∧ Accepted pi opts rows ch ∧
      (∀ k < 4 * n, access rows k = acc k) ∧
      (∀ k < 4 * n, sortedAccess (hasRcBuiltin pi) rows k = sorted k) ∧
      ∀ i < n, cell rows i FRAME_AP = ap i ∧ cell rows i FRAME_FP = fp i ∧
        cell rows i FRAME_SELECTOR = 0 := by
  obtain ⟨rows, e1, e2, e3, e4, -, e5⟩ := forge_rc pi opts ch n acc sorted ap fp (stair lo hi)
    (stair lo hi) (fun _ => 1) lo hi h1 h2 hlo hhi (fun k _ => stair_step lo hi k)
    (by rw [stair, Nat.add_zero, Nat.min_eq_left hr])
    (by rw [stair, Nat.min_eq_right (by omega)]) (fun _ _ => rfl) rfl rfl hpub hs hz hpc hpc' hap hap'
  exact ⟨rows, e1, e2, e3, e4, e5⟩

end Verif.CairoAir
