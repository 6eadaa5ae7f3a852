import Verif.Model.Field
import Verif.Model.PublicInputs
import Mathlib.Algebra.Ring.Basic
import Mathlib.Data.List.GetD

/-!
# The Cairo AIR: transition constraints

Models `src/cairo/air.rs:28-154` (identifiers) and `src/cairo/air.rs:587-1160` (constraints).

Rows are functions from the column index to the cell; that an index lies outside the row, where the
code panics, is treated by `CairoAir.computeTransitionFrame` (Verif/Model/Air.lean). The functions
that write into the `constraints` slice return here the list of values they write, in the order of
their identifiers. The constraint expressions are stated over an arbitrary commutative ring, so that
the same definition can be evaluated on field elements (as the code does) and on polynomials (to
speak about the composition polynomial).
-/

namespace Verif.CairoAir

/-! ## Column identifiers (src/cairo/air.rs:73-146) -/

/-- `F_DST_FP` (src/cairo/air.rs:75). -/
abbrev F_DST_FP := 0
/-- `F_OP_0_FP` (src/cairo/air.rs:76). -/
abbrev F_OP_0_FP := 1
/-- `F_OP_1_VAL` (src/cairo/air.rs:77). -/
abbrev F_OP_1_VAL := 2
/-- `F_OP_1_FP` (src/cairo/air.rs:78). -/
abbrev F_OP_1_FP := 3
/-- `F_OP_1_AP` (src/cairo/air.rs:79). -/
abbrev F_OP_1_AP := 4
/-- `F_RES_ADD` (src/cairo/air.rs:80). -/
abbrev F_RES_ADD := 5
/-- `F_RES_MUL` (src/cairo/air.rs:81). -/
abbrev F_RES_MUL := 6
/-- `F_PC_ABS` (src/cairo/air.rs:82). -/
abbrev F_PC_ABS := 7
/-- `F_PC_REL` (src/cairo/air.rs:83). -/
abbrev F_PC_REL := 8
/-- `F_PC_JNZ` (src/cairo/air.rs:84). -/
abbrev F_PC_JNZ := 9
/-- `F_AP_ADD` (src/cairo/air.rs:85). -/
abbrev F_AP_ADD := 10
/-- `F_AP_ONE` (src/cairo/air.rs:86). -/
abbrev F_AP_ONE := 11
/-- `F_OPC_CALL` (src/cairo/air.rs:87). -/
abbrev F_OPC_CALL := 12
/-- `F_OPC_RET` (src/cairo/air.rs:88). -/
abbrev F_OPC_RET := 13
/-- `F_OPC_AEQ` (src/cairo/air.rs:89). -/
abbrev F_OPC_AEQ := 14
/-- `FRAME_RES` (src/cairo/air.rs:93). -/
abbrev FRAME_RES := 16
/-- `FRAME_AP` (src/cairo/air.rs:94). -/
abbrev FRAME_AP := 17
/-- `FRAME_FP` (src/cairo/air.rs:95). -/
abbrev FRAME_FP := 18
/-- `FRAME_PC` (src/cairo/air.rs:96). -/
abbrev FRAME_PC := 19
/-- `FRAME_DST_ADDR` (src/cairo/air.rs:97). -/
abbrev FRAME_DST_ADDR := 20
/-- `FRAME_OP0_ADDR` (src/cairo/air.rs:98). -/
abbrev FRAME_OP0_ADDR := 21
/-- `FRAME_OP1_ADDR` (src/cairo/air.rs:99). -/
abbrev FRAME_OP1_ADDR := 22
/-- `FRAME_INST` (src/cairo/air.rs:100). -/
abbrev FRAME_INST := 23
/-- `FRAME_DST` (src/cairo/air.rs:101). -/
abbrev FRAME_DST := 24
/-- `FRAME_OP0` (src/cairo/air.rs:102). -/
abbrev FRAME_OP0 := 25
/-- `FRAME_OP1` (src/cairo/air.rs:103). -/
abbrev FRAME_OP1 := 26
/-- `OFF_DST` (src/cairo/air.rs:104). -/
abbrev OFF_DST := 27
/-- `OFF_OP0` (src/cairo/air.rs:105). -/
abbrev OFF_OP0 := 28
/-- `OFF_OP1` (src/cairo/air.rs:106). -/
abbrev OFF_OP1 := 29
/-- `FRAME_T0` (src/cairo/air.rs:107). -/
abbrev FRAME_T0 := 30
/-- `FRAME_T1` (src/cairo/air.rs:108). -/
abbrev FRAME_T1 := 31
/-- `FRAME_MUL` (src/cairo/air.rs:109). -/
abbrev FRAME_MUL := 32
/-- `FRAME_SELECTOR` (src/cairo/air.rs:110). -/
abbrev FRAME_SELECTOR := 33
/-- `RC_0`; `RC_1` ... `RC_7` follow (src/cairo/air.rs:113-120). -/
abbrev RC_0 := 34
/-- `RC_VALUE` (src/cairo/air.rs:121). -/
abbrev RC_VALUE := 42
/-- `RANGE_CHECK_COL_1` (src/cairo/air.rs:124). -/
abbrev RANGE_CHECK_COL_1 := 43
/-- `RANGE_CHECK_COL_2` (src/cairo/air.rs:125). -/
abbrev RANGE_CHECK_COL_2 := 44
/-- `RANGE_CHECK_COL_3` (src/cairo/air.rs:126). -/
abbrev RANGE_CHECK_COL_3 := 45
/-- `MEMORY_ADDR_SORTED_0`; `_1` ... `_3` follow (src/cairo/air.rs:129-132). -/
abbrev MEMORY_ADDR_SORTED_0 := 46
/-- `MEMORY_VALUES_SORTED_0`; `_1` ... `_3` follow (src/cairo/air.rs:134-137). -/
abbrev MEMORY_VALUES_SORTED_0 := 50
/-- `PERMUTATION_ARGUMENT_COL_0`; `_1` ... `_3` follow (src/cairo/air.rs:139-142). -/
abbrev PERMUTATION_ARGUMENT_COL_0 := 54
/-- `PERMUTATION_ARGUMENT_RANGE_CHECK_COL_1`; `_2`, `_3` follow (src/cairo/air.rs:144-146). -/
abbrev PERMUTATION_ARGUMENT_RANGE_CHECK_COL_1 := 58
/-- `MEM_P_TRACE_OFFSET` (src/cairo/air.rs:149). -/
abbrev MEM_P_TRACE_OFFSET := 17
/-- `MEM_A_TRACE_OFFSET` (src/cairo/air.rs:150). -/
abbrev MEM_A_TRACE_OFFSET := 19
/-- `BUILTIN_OFFSET` (src/cairo/air.rs:154). -/
abbrev BUILTIN_OFFSET := 9

/-- `CairoRAPChallenges` (src/cairo/air.rs:469-473). -/
structure RAPChallenges (R : Type) where
  alphaMemory : R
  zMemory : R
  zRangeCheck : R

/-- `CairoAIR::get_builtin_offset` (src/cairo/air.rs:460-466). -/
def builtinOffset (hasRc : Bool) : Nat := if hasRc then 0 else BUILTIN_OFFSET

section
variable {R : Type} [CommRing R]

/-- `frame_inst_size` (src/cairo/air.rs:1137-1139). -/
def frameInstSize (row : Nat → R) : R := row F_OP_1_VAL + 1

/-- `compute_instr_constraints` (src/cairo/air.rs:869-897): identifiers 0 to 16. -/
def instrConstraints (curr : Nat → R) : List R :=
  let f0Squiggle := ((List.range 15).map curr).reverse.foldl (fun acc flag => flag + 2 * acc) 0
  (List.range 15).map (fun i => curr i * (curr i - 1)) ++
  [ curr 15,
    curr OFF_DST + 2 ^ 16 * curr OFF_OP0 + 2 ^ 32 * curr OFF_OP1 + 2 ^ 48 * f0Squiggle
      - curr FRAME_INST ]

/-- `compute_operand_constraints` (src/cairo/air.rs:899-924): identifiers 17 to 19. -/
def operandConstraints (curr : Nat → R) : List R :=
  let ap := curr FRAME_AP
  let fp := curr FRAME_FP
  let pc := curr FRAME_PC
  [ curr F_DST_FP * fp + (1 - curr F_DST_FP) * ap + (curr OFF_DST - 2 ^ 15) - curr FRAME_DST_ADDR,
    curr F_OP_0_FP * fp + (1 - curr F_OP_0_FP) * ap + (curr OFF_OP0 - 2 ^ 15) - curr FRAME_OP0_ADDR,
    curr F_OP_1_VAL * pc + curr F_OP_1_AP * ap + curr F_OP_1_FP * fp
      + (1 - curr F_OP_1_VAL - curr F_OP_1_AP - curr F_OP_1_FP) * curr FRAME_OP0
      + (curr OFF_OP1 - 2 ^ 15) - curr FRAME_OP1_ADDR ]

/-- `compute_register_constraints` (src/cairo/air.rs:926-959): identifiers 20 to 25. -/
def registerConstraints (curr next : Nat → R) : List R :=
  [ curr FRAME_AP + curr F_AP_ADD * curr FRAME_RES + curr F_AP_ONE + curr F_OPC_CALL * 2
      - next FRAME_AP,
    curr F_OPC_RET * curr FRAME_DST + curr F_OPC_CALL * (curr FRAME_AP + 2)
      + (1 - curr F_OPC_RET - curr F_OPC_CALL) * curr FRAME_FP - next FRAME_FP,
    (curr FRAME_T1 - curr F_PC_JNZ) * (next FRAME_PC - (curr FRAME_PC + frameInstSize curr)),
    curr FRAME_T0 * (next FRAME_PC - (curr FRAME_PC + curr FRAME_OP1))
      + (1 - curr F_PC_JNZ) * next FRAME_PC
      - ((1 - curr F_PC_ABS - curr F_PC_REL - curr F_PC_JNZ) * (curr FRAME_PC + frameInstSize curr)
        + curr F_PC_ABS * curr FRAME_RES + curr F_PC_REL * (curr FRAME_PC + curr FRAME_RES)),
    curr F_PC_JNZ * curr FRAME_DST - curr FRAME_T0,
    curr FRAME_T0 * curr FRAME_RES - curr FRAME_T1 ]

/-- `compute_opcode_constraints` (src/cairo/air.rs:961-978): identifiers 26 to 30. -/
def opcodeConstraints (curr : Nat → R) : List R :=
  [ curr FRAME_MUL - curr FRAME_OP0 * curr FRAME_OP1,
    curr F_RES_ADD * (curr FRAME_OP0 + curr FRAME_OP1) + curr F_RES_MUL * curr FRAME_MUL
      + (1 - curr F_RES_ADD - curr F_RES_MUL - curr F_PC_JNZ) * curr FRAME_OP1
      - (1 - curr F_PC_JNZ) * curr FRAME_RES,
    curr F_OPC_CALL * (curr FRAME_DST - curr FRAME_FP),
    curr F_OPC_CALL * (curr FRAME_OP0 - (curr FRAME_PC + frameInstSize curr)),
    curr F_OPC_AEQ * (curr FRAME_DST - curr FRAME_RES) ]

/-- `enforce_selector` (src/cairo/air.rs:980-985): identifiers `INST = 16` to `ASSERT_EQ = 30` are
multiplied by the selector cell. -/
def enforceSelector (curr : Nat → R) (constraints : List R) : List R :=
  constraints.mapIdx fun i c => if 16 ≤ i ∧ i < 30 + 1 then c * curr FRAME_SELECTOR else c

/-- `memory_is_increasing` (src/cairo/air.rs:987-1043): identifiers 31 to 38. -/
def memoryIsIncreasing (off : Nat) (curr next : Nat → R) : List R :=
  let a := fun k => curr (MEMORY_ADDR_SORTED_0 + k - off)
  let v := fun k => curr (MEMORY_VALUES_SORTED_0 + k - off)
  let a0' := next (MEMORY_ADDR_SORTED_0 - off)
  let v0' := next (MEMORY_VALUES_SORTED_0 - off)
  [ (a 0 - a 1) * (a 1 - a 0 - 1),
    (a 1 - a 2) * (a 2 - a 1 - 1),
    (a 2 - a 3) * (a 3 - a 2 - 1),
    (a 3 - a0') * (a0' - a 3 - 1),
    (v 0 - v 1) * (a 1 - a 0 - 1),
    (v 1 - v 2) * (a 2 - a 1 - 1),
    (v 2 - v 3) * (a 3 - a 2 - 1),
    (v 3 - v0') * (a0' - a 3 - 1) ]

/-- `permutation_argument` (src/cairo/air.rs:1045-1090): identifiers 39 to 42. -/
def permutationArgument (ch : RAPChallenges R) (off : Nat) (curr next : Nat → R) : List R :=
  let z := ch.zMemory
  let alpha := ch.alphaMemory
  let p := fun k => curr (PERMUTATION_ARGUMENT_COL_0 + k - off)
  let p0' := next (PERMUTATION_ARGUMENT_COL_0 - off)
  let ap := fun k => curr (MEMORY_ADDR_SORTED_0 + k - off)
  let ap0' := next (MEMORY_ADDR_SORTED_0 - off)
  let vp := fun k => curr (MEMORY_VALUES_SORTED_0 + k - off)
  let vp0' := next (MEMORY_VALUES_SORTED_0 - off)
  [ (z - (ap 1 + alpha * vp 1)) * p 1 - (z - (curr FRAME_DST_ADDR + alpha * curr FRAME_DST)) * p 0,
    (z - (ap 2 + alpha * vp 2)) * p 2 - (z - (curr FRAME_OP0_ADDR + alpha * curr FRAME_OP0)) * p 1,
    (z - (ap 3 + alpha * vp 3)) * p 3 - (z - (curr FRAME_OP1_ADDR + alpha * curr FRAME_OP1)) * p 2,
    (z - (ap0' + alpha * vp0')) * p0' - (z - (next FRAME_PC + alpha * next FRAME_INST)) * p 3 ]

/-- `permutation_argument_range_check` (src/cairo/air.rs:1092-1135): identifiers 43 to 48. -/
def permutationArgumentRangeCheck (ch : RAPChallenges R) (off : Nat) (curr next : Nat → R) :
    List R :=
  let z := ch.zRangeCheck
  let c1 := curr (RANGE_CHECK_COL_1 - off)
  let c2 := curr (RANGE_CHECK_COL_2 - off)
  let c3 := curr (RANGE_CHECK_COL_3 - off)
  let c1' := next (RANGE_CHECK_COL_1 - off)
  let p0 := curr (PERMUTATION_ARGUMENT_RANGE_CHECK_COL_1 - off)
  let p0' := next (PERMUTATION_ARGUMENT_RANGE_CHECK_COL_1 - off)
  let p1 := curr (PERMUTATION_ARGUMENT_RANGE_CHECK_COL_1 + 1 - off)
  let p2 := curr (PERMUTATION_ARGUMENT_RANGE_CHECK_COL_1 + 2 - off)
  [ (c1 - c2) * (c2 - c1 - 1),
    (c2 - c3) * (c3 - c2 - 1),
    (c3 - c1') * (c1' - c3 - 1),
    (z - c2) * p1 - (z - curr OFF_OP0) * p0,
    (z - c3) * p2 - (z - curr OFF_OP1) * p1,
    (z - c1') * p0' - (z - next OFF_DST) * p2 ]

/-- `evaluate_range_check_builtin_constraint` (src/cairo/air.rs:1150-1160): identifier 49. -/
def rangeCheckBuiltin (curr : Nat → R) : R :=
  curr RC_0 + curr (RC_0 + 1) * 2 ^ 16 + curr (RC_0 + 2) * 2 ^ 32 + curr (RC_0 + 3) * 2 ^ 48
    + curr (RC_0 + 4) * 2 ^ 64 + curr (RC_0 + 5) * 2 ^ 80 + curr (RC_0 + 6) * 2 ^ 96
    + curr (RC_0 + 7) * 2 ^ 112 - curr RC_VALUE

/-- `CairoAIR::compute_transition` (src/cairo/air.rs:743-767), on rows wide enough to be indexed. -/
def computeTransition (hasRc : Bool) (ch : RAPChallenges R) (curr next : Nat → R) : List R :=
  let off := builtinOffset hasRc
  enforceSelector curr
      (instrConstraints curr ++ operandConstraints curr ++ registerConstraints curr next
        ++ opcodeConstraints curr)
    ++ memoryIsIncreasing off curr next
    ++ permutationArgument ch off curr next
    ++ permutationArgumentRangeCheck ch off curr next
    ++ (if hasRc then [rangeCheckBuiltin curr] else [])

end

/-! ## Shape of the AIR (src/cairo/air.rs:587-658) -/

/-- `has_rc_builtin` (src/cairo/air.rs:623). -/
def hasRcBuiltin (pi : PublicInputs) : Bool := !pi.memorySegments.isEmpty

/-- `trace_columns` (src/cairo/air.rs:594, 625). -/
def traceColumns (hasRc : Bool) : Nat := 34 + 3 + 12 + 3 + (if hasRc then 8 + 1 else 0)

/-- `number_auxiliary_rap_columns` (src/cairo/air.rs:739-741). -/
def numberAuxiliaryRapColumns : Nat := 12 + 3 + 3

/-- `transition_degrees` (src/cairo/air.rs:595-604, 626). -/
def transitionDegrees (hasRc : Bool) : List Nat :=
  List.replicate 15 2 ++ [1] ++ List.replicate 15 3 ++ [2, 2, 2, 2] ++ [2, 2, 2, 2] ++ [2, 2, 2, 2]
    ++ [2, 2, 2] ++ [2, 2, 2] ++ (if hasRc then [1] else [])

/-- `transition_exemptions` (src/cairo/air.rs:605-616, 627). -/
def transitionExemptions (hasRc : Bool) : List Nat :=
  List.replicate 16 0 ++ [0] ++ [0, 0, 0] ++ [1, 1, 1, 1, 0, 0] ++ [0, 0, 0, 0, 0] ++ [0, 0, 0, 1]
    ++ [0, 0, 0, 1] ++ [0, 0, 0, 1] ++ [0, 0, 1] ++ [0, 0, 0] ++ (if hasRc then [0] else [])

/-- `num_transition_constraints` (src/cairo/air.rs:617, 628). -/
def numTransitionConstraints (hasRc : Bool) : Nat := 49 + (if hasRc then 1 else 0)

end Verif.CairoAir
