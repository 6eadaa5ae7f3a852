import Verif.Model.Field
import Mathlib.Data.List.GetD

/-!
# What decoding an instruction has to deliver
-/

namespace Verif.Spec

/-- Bit `j` of the flag half-word of an instruction (bit `48 + j` of the word), as a field
element. -/
def flagBit (w : Nat) (j : Nat) : FE := if w.testBit (48 + j) then 1 else 0

/-- The value a row of 15 flag cells and three offset cells packs to (Cairo whitepaper,
section 9.4: `inst = off_dst + 2^16 off_op0 + 2^32 off_op1 + 2^48 Σ 2^i f_i`). -/
def packed (flags : List FE) (offs : List FE) : FE :=
  offs.getD 0 0 + 2 ^ 16 * offs.getD 1 0 + 2 ^ 32 * offs.getD 2 0 +
    2 ^ 48 * ((List.range 15).map fun i => 2 ^ i * flags.getD i 0).sum

end Verif.Spec
