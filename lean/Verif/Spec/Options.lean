import Mathlib.Data.Int.Order.Basic

/-!
# Security of proof options

The number of security bits of a STARK with a field of `fieldBits` bits used for domains of at most
`2^40` elements, a blowup factor of `2^b`, `q` FRI queries and a grinding target of `g` bits
(section 5.10.1 of https://eprint.iacr.org/2021/582.pdf, the reference of the code).
-/

namespace Verif.Spec

/-- Conjectured security. -/
def conjecturedSecurity (fieldBits b q g : Nat) : Int :=
  min ((fieldBits : Int) - 40) (g + b * q) - 1

/-- Security provable in the list decoding regime: every query counts for half the bits. -/
def provableSecurity (fieldBits b q g : Nat) : Int :=
  min ((fieldBits : Int) - 40) (g + b * q / 2) - 1

end Verif.Spec
