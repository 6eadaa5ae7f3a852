import Verif.Lemmas.CairoDeclared

/-! Building and reading traces that satisfy the Cairo AIR, cell by cell. -/

namespace Verif.CairoAir
open Spec

/-- The table with the given cells. -/
def table (n w : Nat) (f : Nat → Nat → FE) : List (List FE) :=
  (List.range n).map fun i => (List.range w).map (f i)

theorem table_length (n w : Nat) (f : Nat → Nat → FE) : (table n w f).length = n := by simp [table]

theorem table_rect (n w : Nat) (f : Nat → Nat → FE) : ∀ r ∈ table n w f, r.length = w := by
  intro r hr
  obtain ⟨i, -, rfl⟩ := List.mem_map.1 hr
  simp

theorem cell_table {n w : Nat} {f : Nat → Nat → FE} {i : Nat} (hi : i < n)
    (h0 : ∀ c, w ≤ c → f i c = 0) : cell (table n w f) i = f i := by
  funext c
  unfold cell table
  rw [List.getD_eq_getElem ((List.range n).map _) _ (by simpa using hi), List.getElem_map,
    List.getElem_range]
  by_cases hc : c < w
  · rw [List.getD_eq_getElem _ _ (by simpa using hc)]; simp
  · rw [List.getD_eq_default _ _ (by simpa using hc), h0 c (by omega)]

theorem cell_outside {rows : List (List FE)} {w : Nat} (hrect : ∀ r ∈ rows, r.length = w) (i c : Nat)
    (hc : w ≤ c) : cell rows i c = 0 := by
  unfold cell
  apply List.getD_eq_default
  by_cases hi : i < rows.length
  · rw [List.getD_eq_getElem _ _ hi, hrect _ (List.getElem_mem _)]; exact hc
  · rw [List.getD_eq_default _ _ (by omega)]; simp

theorem cell_iff {rows : List (List FE)} {w : Nat} (hrect : ∀ r ∈ rows, r.length = w) {i c : Nat}
    (hi : i < rows.length) (hc : c < w) (v : FE) :
    (∃ row, rows[i]? = some row ∧ row[c]? = some v) ↔ cell rows i c = v := by
  have hl := hrect _ (List.getElem_mem hi)
  unfold cell
  rw [List.getElem?_eq_getElem hi, List.getD_eq_getElem _ _ hi,
    List.getD_eq_getElem _ _ (by rw [hl]; exact hc)]
  constructor
  · rintro ⟨row, h1, h2⟩
    cases h1
    rw [List.getElem?_eq_getElem (by rw [hl]; exact hc)] at h2
    exact Option.some.inj h2
  · rintro rfl
    exact ⟨_, rfl, List.getElem?_eq_getElem _⟩

/-- Satisfying the Cairo AIR, by the cells of the trace. -/
theorem satisfies_cells {pi : PublicInputs} {opts : ProofOptions} {ch : RAPChallenges FE}
    {rows : List (List FE)} (hrect : ∀ r ∈ rows, r.length = traceColumns (hasRcBuiltin pi))
    (hsteps : pi.numSteps ≤ rows.length) (hn : 0 < rows.length) :
    Satisfies (air rows.length pi opts) rows (traceColumns (hasRcBuiltin pi)) ch ↔
      (∃ cs, boundaryConstraints pi rows.length ch = .ok cs ∧
        ∀ c ∈ cs, cell rows c.step c.col = c.value) ∧
      ∀ i < rows.length, ∀ (k x : Nat), (transitionExemptions (hasRcBuiltin pi))[k]? = some x →
        i + x < rows.length →
        (computeTransition (hasRcBuiltin pi) ch (cell rows i)
          (cell rows ((i + 1) % rows.length)))[k]? = some 0 := by
  rw [satisfies_iff _ _ _ _ hrect]
  refine and_congr_left fun _ => exists_congr fun cs => and_congr_right fun hcs => ?_
  have hin := (declared rows.length pi opts ch hn hsteps).boundary_in cs hcs
  refine forall_congr' fun c => forall_congr' fun hc => ?_
  exact cell_iff hrect (hin c hc).1 (hin c hc).2 c.value

theorem exemptions_cases (hasRc : Bool) (k x : Nat) (h : (transitionExemptions hasRc)[k]? = some x) :
    (k < 49 ∨ (k = 49 ∧ hasRc = true)) ∧
    x = if k ∈ [20, 21, 22, 23, 34, 38, 42, 45] then 1 else 0 := by
  have hk := (List.getElem?_eq_some_iff.1 h).1
  have hk' : k < 49 ∨ (k = 49 ∧ hasRc = true) := by
    cases hasRc <;> simp [transitionExemptions] at hk
    · left; omega
    · rcases Nat.lt_or_ge k 49 with h | h
      · exact Or.inl h
      · exact Or.inr ⟨by omega, rfl⟩
  refine ⟨hk', ?_⟩
  have key : ∀ b : Bool, ∀ k < 50, ∀ y ∈ (transitionExemptions b)[k]?,
      y = if k ∈ [20, 21, 22, 23, 34, 38, 42, 45] then 1 else 0 := by decide
  exact key hasRc k (by omega) x h

/-- The transition constraints on a trace of `n` rows with the cells `f`, by groups. -/
structure Parts (hasRc : Bool) (ch : RAPChallenges FE) (n : Nat) (f : Nat → Nat → FE) : Prop where
  flags : ∀ i < n, ∀ j < 15, f i j * (f i j - 1) = 0
  c15 : ∀ i < n, f i 15 = 0
  exec : ∀ i < n, ∀ k, 16 ≤ k → k < 31 → (k ∈ [20, 21, 22, 23] → i + 1 < n) →
    (execPart (f i) (f ((i + 1) % n)))[k]? = some 0
  mem : ∀ i < n, ∀ j < 8, (j = 3 ∨ j = 7 → i + 1 < n) →
    (memoryIsIncreasing (builtinOffset hasRc) (f i) (f ((i + 1) % n)))[j]? = some 0
  perm : ∀ i < n, ∀ j < 4, (j = 3 → i + 1 < n) →
    (permutationArgument ch (builtinOffset hasRc) (f i) (f ((i + 1) % n)))[j]? = some 0
  rc : ∀ i < n, ∀ j < 6, (j = 2 → i + 1 < n) →
    (permutationArgumentRangeCheck ch (builtinOffset hasRc) (f i) (f ((i + 1) % n)))[j]? = some 0
  builtin : hasRc = true → ∀ i < n, rangeCheckBuiltin (f i) = 0

theorem execPart_flag (curr next : Nat → FE) (k : Nat) (hk : k < 15) :
    (execPart curr next)[k]? = some (curr k * (curr k - 1)) := by
  unfold execPart
  rw [List.append_assoc, List.getElem?_append_left (by simpa using hk)]
  simp [hk]

theorem execPart_c15 (curr next : Nat → FE) : (execPart curr next)[15]? = some (curr 15) := by
  unfold execPart
  rw [List.append_assoc, List.getElem?_append_right (by simp)]
  simp

theorem execPart_sel (curr next : Nat → FE) (h0 : curr 33 = 0) (k : Nat) (h1 : 16 ≤ k)
    (h2 : k < 31) : (execPart curr next)[k]? = some 0 := by
  have hl := execPart_length curr next
  rw [List.getElem?_eq_getElem (by omega)]
  have hmem : (execPart curr next)[k]? = some (execPart curr next)[k] :=
    List.getElem?_eq_getElem (by omega)
  generalize (execPart curr next)[k] = v at hmem
  unfold execPart at hmem
  rw [List.getElem?_append_right (by simp; omega)] at hmem
  obtain ⟨c, -, rfl⟩ := List.mem_map.1 (List.mem_of_getElem? hmem)
  rw [h0, mul_zero]

theorem parts_iff (hasRc : Bool) (ch : RAPChallenges FE) (n : Nat) (f : Nat → Nat → FE) :
    (∀ i < n, ∀ (k x : Nat), (transitionExemptions hasRc)[k]? = some x → i + x < n →
      (computeTransition hasRc ch (f i) (f ((i + 1) % n)))[k]? = some 0) ↔ Parts hasRc ch n f := by
  have hex : ∀ k, k < 49 ∨ (k = 49 ∧ hasRc = true) → (transitionExemptions hasRc)[k]? =
      some (if k ∈ [20, 21, 22, 23, 34, 38, 42, 45] then 1 else 0) := by
    intro k hk
    have hlen : k < (transitionExemptions hasRc).length := by
      rcases hk with h | ⟨rfl, rfl⟩
      · cases hasRc <;> simp [transitionExemptions] <;> omega
      · simp [transitionExemptions]
    have := List.getElem?_eq_getElem hlen
    rw [this, (exemptions_cases hasRc k _ this).2]
  constructor
  · intro h
    have h' : ∀ i < n, ∀ k, k < 49 ∨ (k = 49 ∧ hasRc = true) →
        (k ∈ [20, 21, 22, 23, 34, 38, 42, 45] → i + 1 < n) →
        (computeTransition hasRc ch (f i) (f ((i + 1) % n)))[k]? = some 0 := by
      intro i hi k hk hx
      refine h i hi k _ (hex k hk) ?_
      split
      · exact hx ‹_›
      · exact hi
    refine ⟨?_, ?_, ?_, ?_, ?_, ?_, ?_⟩
    · intro i hi j hj
      have := h' i hi j (by omega) (by
        intro hm; simp only [List.mem_cons, List.not_mem_nil, or_false] at hm; omega)
      rw [transition_exec _ _ _ _ _ (by omega), execPart_flag _ _ _ hj] at this
      exact Option.some.inj this
    · intro i hi
      have := h' i hi 15 (by omega) (fun h => absurd h (by decide))
      rw [transition_exec _ _ _ _ _ (by omega), execPart_c15] at this
      exact Option.some.inj this
    · intro i hi k h1 h2 hx
      rw [← transition_exec hasRc ch _ _ _ h2]
      refine h' i hi k (by omega) fun hm => hx ?_
      simp only [List.mem_cons, List.not_mem_nil, or_false] at hm ⊢; omega
    · intro i hi j hj hx
      rw [← transition_memory hasRc ch _ _ _ hj]
      refine h' i hi _ (by omega) fun hm => hx ?_
      simp only [List.mem_cons, List.not_mem_nil, or_false] at hm; omega
    · intro i hi j hj hx
      rw [← transition_permutation hasRc ch _ _ _ hj]
      refine h' i hi _ (by omega) fun hm => hx ?_
      simp only [List.mem_cons, List.not_mem_nil, or_false] at hm; omega
    · intro i hi j hj hx
      rw [← transition_rangeCheck hasRc ch _ _ _ hj]
      refine h' i hi _ (by omega) fun hm => hx ?_
      simp only [List.mem_cons, List.not_mem_nil, or_false] at hm; omega
    · rintro rfl i hi
      have := h' i hi 49 (by simp) (fun h => absurd h (by decide))
      rw [transition_builtin] at this
      exact Option.some.inj this
  · rintro ⟨h1, h2, h3, h4, h5, h6, h7⟩ i hi k x hx hlt
    obtain ⟨hk, rfl⟩ := exemptions_cases hasRc k x hx
    have hx1 : k ∈ [20, 21, 22, 23, 34, 38, 42, 45] → i + 1 < n := by
      intro hm; rw [if_pos hm] at hlt; exact hlt
    simp only [List.mem_cons, List.not_mem_nil, or_false] at hx1
    by_cases k15 : k < 15
    · rw [transition_exec _ _ _ _ _ (by omega), execPart_flag _ _ _ k15, h1 i hi k k15]
    by_cases k16 : k = 15
    · subst k16
      rw [transition_exec _ _ _ _ _ (by omega), execPart_c15, h2 i hi]
    by_cases k31 : k < 31
    · rw [transition_exec _ _ _ _ _ k31]
      refine h3 i hi k (by omega) k31 fun hm => hx1 ?_
      simp only [List.mem_cons, List.not_mem_nil, or_false] at hm; omega
    by_cases k39 : k < 39
    · obtain ⟨j, rfl⟩ : ∃ j, k = 31 + j := ⟨k - 31, by omega⟩
      rw [transition_memory _ _ _ _ _ (by omega)]
      exact h4 i hi j (by omega) fun hm => hx1 (by omega)
    by_cases k43 : k < 43
    · obtain ⟨j, rfl⟩ : ∃ j, k = 39 + j := ⟨k - 39, by omega⟩
      rw [transition_permutation _ _ _ _ _ (by omega)]
      exact h5 i hi j (by omega) fun hm => hx1 (by omega)
    by_cases k49 : k < 49
    · obtain ⟨j, rfl⟩ : ∃ j, k = 43 + j := ⟨k - 43, by omega⟩
      rw [transition_rangeCheck _ _ _ _ _ (by omega)]
      exact h6 i hi j (by omega) fun hm => hx1 (by omega)
    · obtain ⟨rfl, rfl⟩ : k = 49 ∧ hasRc = true := by
        rcases hk with h | h
        · omega
        · exact h
      rw [transition_builtin, h7 rfl i hi]

/-- The product over the public memory in the boundary constraint. -/
def pubProd (pi : PublicInputs) (ch : RAPChallenges FE) : FE :=
  pi.publicMemory.foldl (fun product e => product * (ch.zMemory - (e.1 + ch.alphaMemory * e.2))) 1

/-- The boundary constraints on a trace of `n` rows with the cells `f`. -/
structure Ends (pi : PublicInputs) (ch : RAPChallenges FE) (n : Nat) (f : Nat → Nat → FE)
    (lo hi : UInt16) : Prop where
  steps : pi.numSteps ≠ 0
  rows : n ≠ 0
  min : pi.rangeCheckMin = some lo
  max : pi.rangeCheckMax = some hi
  prod : pubProd pi ch ≠ 0
  pcInit : f 0 19 = pi.pcInit
  apInit : f 0 17 = pi.apInit
  pcFinal : f (pi.numSteps - 1) 19 = pi.pcFinal
  apFinal : f (pi.numSteps - 1) 17 = pi.apFinal
  perm : f (n - 1) (57 - builtinOffset (hasRcBuiltin pi)) =
    ch.zMemory ^ pi.publicMemory.length * (pubProd pi ch)⁻¹
  rcPerm : f (n - 1) (60 - builtinOffset (hasRcBuiltin pi)) = 1
  rcFirst : f 0 (43 - builtinOffset (hasRcBuiltin pi)) = (lo.toNat : FE)
  rcLast : f (n - 1) (45 - builtinOffset (hasRcBuiltin pi)) = (hi.toNat : FE)

theorem ends_iff (pi : PublicInputs) (ch : RAPChallenges FE) (n : Nat) (f : Nat → Nat → FE) :
    (∃ cs, boundaryConstraints pi n ch = .ok cs ∧ ∀ c ∈ cs, f c.step c.col = c.value) ↔
      ∃ lo hi, Ends pi ch n f lo hi := by
  constructor
  · rintro ⟨cs, h, hc⟩
    obtain ⟨h1, h2, lo, hi, h3, h4, h5, rfl⟩ := boundaryConstraints_ok h
    simp only [List.mem_cons, List.not_mem_nil, or_false, forall_eq_or_imp, forall_eq] at hc
    obtain ⟨c1, c2, c3, c4, c5, c6, c7, c8⟩ := hc
    exact ⟨lo, hi, h1, h2, h3, h4, h5, c1, c2, c3, c4, c5, c6, c7, c8⟩
  · rintro ⟨lo, hi, h1, h2, h3, h4, h5, c1, c2, c3, c4, c5, c6, c7, c8⟩
    have h : ∃ cs, boundaryConstraints pi n ch = .ok cs := by
      unfold boundaryConstraints
      rw [if_neg (by push Not; exact ⟨h1, h2⟩)]
      unfold pubProd at h5
      simp only [inv, if_neg h5, h3, h4, Outcome.ofOptionUnwrap, Outcome.bind_ok]
      exact ⟨_, rfl⟩
    obtain ⟨cs, h⟩ := h
    refine ⟨cs, h, ?_⟩
    obtain ⟨-, -, lo', hi', h3', h4', -, rfl⟩ := boundaryConstraints_ok h
    rw [h3] at h3'; rw [h4] at h4'
    obtain rfl := Option.some.inj h3'
    obtain rfl := Option.some.inj h4'
    simp only [List.mem_cons, List.not_mem_nil, or_false, forall_eq_or_imp, forall_eq]
    exact ⟨c1, c2, c3, c4, c5, c6, c7, c8⟩

/-- Satisfying the Cairo AIR: boundary cells and transition groups. -/
theorem satisfies_parts {pi : PublicInputs} {opts : ProofOptions} {ch : RAPChallenges FE}
    {rows : List (List FE)} (hrect : ∀ r ∈ rows, r.length = traceColumns (hasRcBuiltin pi))
    (hsteps : pi.numSteps ≤ rows.length) (hn : 0 < rows.length) :
    Satisfies (air rows.length pi opts) rows (traceColumns (hasRcBuiltin pi)) ch ↔
      (∃ lo hi, Ends pi ch rows.length (cell rows) lo hi) ∧
      Parts (hasRcBuiltin pi) ch rows.length (cell rows) := by
  rw [satisfies_cells hrect hsteps hn, parts_iff, ends_iff]

/-- A trace with given cells satisfies the AIR. -/
theorem satisfies_table {pi : PublicInputs} {opts : ProofOptions} {ch : RAPChallenges FE} {n : Nat}
    {f : Nat → Nat → FE} (h0 : ∀ i c, traceColumns (hasRcBuiltin pi) ≤ c → f i c = 0)
    (hsteps : pi.numSteps ≤ n) {lo hi : UInt16} (he : Ends pi ch n f lo hi)
    (hp : Parts (hasRcBuiltin pi) ch n f) :
    Satisfies (air n pi opts) (table n (traceColumns (hasRcBuiltin pi)) f)
      (traceColumns (hasRcBuiltin pi)) ch := by
  have hl := table_length n (traceColumns (hasRcBuiltin pi)) f
  have hn : 0 < n := Nat.pos_of_ne_zero he.rows
  have hc : ∀ i < n, cell (table n (traceColumns (hasRcBuiltin pi)) f) i = f i :=
    fun i hi => cell_table hi (h0 i)
  have key := satisfies_parts (opts := opts) (ch := ch) (table_rect n _ f)
    (by rw [hl]; exact hsteps) (by rw [hl]; exact hn)
  rw [hl] at key
  rw [key]
  have hs1 : pi.numSteps - 1 < n := by
    have := he.steps; omega
  have hm : ∀ i, (i + 1) % n < n := fun i => Nat.mod_lt _ hn
  refine ⟨⟨lo, hi, he.steps, he.rows, he.min, he.max, he.prod, ?_, ?_, ?_, ?_, ?_, ?_, ?_, ?_⟩, ?_⟩
  · rw [hc _ hn]; exact he.pcInit
  · rw [hc _ hn]; exact he.apInit
  · rw [hc _ hs1]; exact he.pcFinal
  · rw [hc _ hs1]; exact he.apFinal
  · rw [hc _ (by omega)]; exact he.perm
  · rw [hc _ (by omega)]; exact he.rcPerm
  · rw [hc _ hn]; exact he.rcFirst
  · rw [hc _ (by omega)]; exact he.rcLast
  · obtain ⟨h1, h2, h3, h4, h5, h6, h7⟩ := hp
    refine ⟨?_, ?_, ?_, ?_, ?_, ?_, ?_⟩
    · intro i hi; rw [hc i hi]; exact h1 i hi
    · intro i hi; rw [hc i hi]; exact h2 i hi
    · intro i hi; rw [hc i hi, hc _ (hm i)]; exact h3 i hi
    · intro i hi; rw [hc i hi, hc _ (hm i)]; exact h4 i hi
    · intro i hi; rw [hc i hi, hc _ (hm i)]; exact h5 i hi
    · intro i hi; rw [hc i hi, hc _ (hm i)]; exact h6 i hi
    · intro hrc i hi; rw [hc i hi]; exact h7 hrc i hi

end Verif.CairoAir
