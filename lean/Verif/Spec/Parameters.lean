import Verif.Model.Options
import Mathlib.Algebra.Field.Defs
import Mathlib.Data.Nat.Cast.Basic

/-!
# Parameters for which a proof makes sense
-/

namespace Verif.Spec

/-- The parameters that the protocol needs, in a field with two-adicity `adicity`: the number of rows of the trace and
the blowup factor are powers of two; the field has a subgroup with as many elements as the extended domain, and its
size is a machine integer; the offset of the coset is not zero; and no point of the extended domain, the coset
`{offset * w : w ^ (rows * blowup) = 1}`, is in the trace domain, the `x` with `x ^ rows = 1`. -/
structure Usable (F : Type) [Field F] (adicity rows : Nat) (options : ProofOptions) : Prop where
  rowsPower : ∃ a, rows = 2 ^ a
  blowupPower : ∃ b, options.blowupFactor.toNat = 2 ^ b
  subgroup : rows * options.blowupFactor.toNat ≤ 2 ^ adicity
  machine : rows * options.blowupFactor.toNat < 2 ^ 64
  offset : (options.cosetOffset : F) ≠ 0
  disjoint : ∀ w : F, w ^ (rows * options.blowupFactor.toNat) = 1 → ((options.cosetOffset : F) * w) ^ rows ≠ 1

end Verif.Spec
