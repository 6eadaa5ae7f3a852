import Verif.Model.Bytes

/-! Specification vocabulary for C07: how an optional 16-bit bound is laid out in bytes. -/

namespace Verif

/-- The slice ends inside an optional bound that announces a value. -/
def TruncatedBound : Bytes → Bool
  | [] => false
  | b :: bs => b = 1 && bs.length < 2

/-- The bytes after one optional bound. -/
def afterBound : Bytes → Option Bytes
  | [] => none
  | b :: bs =>
    if b = 0 then some bs
    else if b = 1 ∧ 2 ≤ bs.length then some (bs.drop 2)
    else none

end Verif
