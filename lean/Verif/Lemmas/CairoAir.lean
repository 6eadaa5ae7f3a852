import Verif.Model.CairoAir
import Verif.Lemmas.Decode
import Mathlib.Tactic.LinearCombination

/-! Helper lemmas about the Cairo AIR constraints. -/

namespace Verif.CairoAir

section
variable {R : Type} [CommRing R] (hasRc : Bool) (ch : RAPChallenges R) (curr next : Nat → R)

theorem enforceSelector_append (a b : List R) (ha : a.length = 16) (hb : b.length = 15) :
    enforceSelector curr (a ++ b) = a ++ b.map (· * curr 33) := by
  apply List.ext_getElem
  · simp [enforceSelector]
  · intro i h1 h2
    simp only [enforceSelector, List.getElem_mapIdx]
    simp only [List.length_append, List.length_map] at h2
    by_cases hi : i < 16
    · rw [List.getElem_append_left (by omega), List.getElem_append_left (by omega),
        if_neg (by omega)]
    · rw [List.getElem_append_right (by omega), List.getElem_append_right (by omega),
        if_pos (by omega), List.getElem_map]

/-- The unscaled instruction-unpacking constraint (identifier 16). -/
def instWord (curr : Nat → R) : R :=
  curr 27 + 2 ^ 16 * curr 28 + 2 ^ 32 * curr 29
    + 2 ^ 48 * ((List.range 15).map curr).reverse.foldl (fun acc flag => flag + 2 * acc) 0 - curr 23

/-- The constraint values, grouped. -/
theorem computeTransition_eq :
    computeTransition hasRc ch curr next =
      ((List.range 15).map (fun i => curr i * (curr i - 1)) ++ [curr 15]) ++
      ([instWord curr] ++ operandConstraints curr ++
        registerConstraints curr next ++ opcodeConstraints curr).map (· * curr 33) ++
      memoryIsIncreasing (builtinOffset hasRc) curr next ++
      permutationArgument ch (builtinOffset hasRc) curr next ++
      permutationArgumentRangeCheck ch (builtinOffset hasRc) curr next ++
      (if hasRc then [rangeCheckBuiltin curr] else []) := by
  unfold computeTransition
  rw [← enforceSelector_append curr _ _ (by simp)
    (by simp [operandConstraints, registerConstraints, opcodeConstraints])]
  simp [instrConstraints, instWord]

theorem computeTransition_length :
    (computeTransition hasRc ch curr next).length = numTransitionConstraints hasRc := by
  rw [computeTransition_eq]
  cases hasRc <;> simp [operandConstraints, registerConstraints, opcodeConstraints,
    memoryIsIncreasing, permutationArgument, permutationArgumentRangeCheck,
    numTransitionConstraints]

/-- The execution constraints (identifiers 0 to 30) all vanish. -/
def ExecZero (curr next : Nat → R) : Prop :=
  (∀ i, i < 15 → curr i * (curr i - 1) = 0) ∧ curr 15 = 0 ∧
  ∀ c ∈ [instWord curr] ++ operandConstraints curr ++ registerConstraints curr next
    ++ opcodeConstraints curr, c * curr 33 = 0

theorem execZero_iff :
    (∀ i, i < 31 → (computeTransition hasRc ch curr next)[i]? = some 0) ↔ ExecZero curr next := by
  rw [computeTransition_eq]
  set A := (List.range 15).map (fun i => curr i * (curr i - 1)) ++ [curr 15] with hA
  set B := ([instWord curr] ++ operandConstraints curr ++
        registerConstraints curr next ++ opcodeConstraints curr).map (· * curr 33) with hB
  have hAl : A.length = 16 := by simp [hA]
  have hBl : B.length = 15 := by
    simp [hB, operandConstraints, registerConstraints, opcodeConstraints]
  simp only [List.append_assoc]
  rw [← List.append_assoc A B]
  have hAB : (A ++ B).length = 31 := by simp [hAl, hBl]
  have key : (∀ i, i < 31 → ((A ++ B) ++ (memoryIsIncreasing (builtinOffset hasRc) curr next ++
      (permutationArgument ch (builtinOffset hasRc) curr next ++
      (permutationArgumentRangeCheck ch (builtinOffset hasRc) curr next ++
      (if hasRc then [rangeCheckBuiltin curr] else [])))))[i]? = some 0) ↔
      ∀ c ∈ A ++ B, c = 0 := by
    constructor
    · intro h c hc
      obtain ⟨i, hi, rfl⟩ := List.getElem_of_mem hc
      have := h i (by omega)
      rw [List.getElem?_append_left hi, List.getElem?_eq_getElem hi] at this
      exact Option.some.inj this
    · intro h i hi
      rw [List.getElem?_append_left (by omega), List.getElem?_eq_getElem (by omega)]
      exact congrArg some (h _ (List.getElem_mem _))
  rw [key]
  simp only [List.mem_append, or_imp, forall_and, hA, hB, ExecZero, List.mem_map, List.mem_range,
    forall_exists_index, and_imp, forall_apply_eq_imp_iff₂, List.mem_singleton, forall_eq, forall_eq']
  tauto

/-- The first 31 constraint values. -/
def execPart (curr next : Nat → R) : List R :=
  ((List.range 15).map (fun i => curr i * (curr i - 1)) ++ [curr 15]) ++
      ([instWord curr] ++ operandConstraints curr ++
        registerConstraints curr next ++ opcodeConstraints curr).map (· * curr 33)

theorem execPart_length : (execPart curr next).length = 31 := by
  simp [execPart, operandConstraints, registerConstraints, opcodeConstraints]

theorem transition_exec (j : Nat) (hj : j < 31) :
    (computeTransition hasRc ch curr next)[j]? = (execPart curr next)[j]? := by
  have h := execPart_length curr next
  rw [computeTransition_eq, ← execPart]
  simp only [List.append_assoc]
  rw [List.getElem?_append_left (by omega)]

theorem transition_memory (j : Nat) (hj : j < 8) :
    (computeTransition hasRc ch curr next)[31 + j]? =
      (memoryIsIncreasing (builtinOffset hasRc) curr next)[j]? := by
  have h := execPart_length curr next
  rw [computeTransition_eq, ← execPart]
  simp only [List.append_assoc]
  rw [List.getElem?_append_right (by omega), List.getElem?_append_left
    (by rw [h]; simp [memoryIsIncreasing]; omega), h]
  congr 1; omega

theorem transition_permutation (j : Nat) (hj : j < 4) :
    (computeTransition hasRc ch curr next)[39 + j]? =
      (permutationArgument ch (builtinOffset hasRc) curr next)[j]? := by
  have h := execPart_length curr next
  have h2 : (memoryIsIncreasing (builtinOffset hasRc) curr next).length = 8 := by
    simp [memoryIsIncreasing]
  have h3 : (permutationArgument ch (builtinOffset hasRc) curr next).length = 4 := by
    simp [permutationArgument]
  rw [computeTransition_eq, ← execPart]
  simp only [List.append_assoc]
  rw [List.getElem?_append_right (by omega), List.getElem?_append_right (by omega),
    List.getElem?_append_left (by omega), h, h2]
  congr 1; omega

theorem transition_rangeCheck (j : Nat) (hj : j < 6) :
    (computeTransition hasRc ch curr next)[43 + j]? =
      (permutationArgumentRangeCheck ch (builtinOffset hasRc) curr next)[j]? := by
  have h := execPart_length curr next
  have h2 : (memoryIsIncreasing (builtinOffset hasRc) curr next).length = 8 := by
    simp [memoryIsIncreasing]
  have h3 : (permutationArgument ch (builtinOffset hasRc) curr next).length = 4 := by
    simp [permutationArgument]
  have h4 : (permutationArgumentRangeCheck ch (builtinOffset hasRc) curr next).length = 6 := by
    simp [permutationArgumentRangeCheck]
  rw [computeTransition_eq, ← execPart]
  simp only [List.append_assoc]
  rw [List.getElem?_append_right (by omega), List.getElem?_append_right (by omega),
    List.getElem?_append_right (by omega), List.getElem?_append_left (by omega), h, h2, h3]
  congr 1; omega

theorem transition_builtin :
    (computeTransition true ch curr next)[49]? = some (rangeCheckBuiltin curr) := by
  have h := execPart_length curr next
  have h2 : (memoryIsIncreasing (builtinOffset true) curr next).length = 8 := by
    simp [memoryIsIncreasing]
  have h3 : (permutationArgument ch (builtinOffset true) curr next).length = 4 := by
    simp [permutationArgument]
  have h4 : (permutationArgumentRangeCheck ch (builtinOffset true) curr next).length = 6 := by
    simp [permutationArgumentRangeCheck]
  rw [computeTransition_eq, ← execPart]
  simp only [List.append_assoc]
  rw [List.getElem?_append_right (by omega), List.getElem?_append_right (by omega),
    List.getElem?_append_right (by omega), List.getElem?_append_right (by omega), h, h2, h3, h4]
  simp

end
end Verif.CairoAir
