import Verif.Spec.FiatShamir

/-!
# Messages that are asked for one after the other

The prover may ask for the hash of a message or for the digests that follow its messages so far.
-/

namespace Verif.Spec
variable {Y M D : Type} {n : Nat}

/-- Among the questions of someone who has got the answers `l` are the messages `y`, first the first of them, then the
first two, and so on; `time j` is when the first `j + 1` were asked for first. -/
structure InOrder (ask : List D → Y ⊕ Told M n) (l : List D) (y : Told M n) (time : Nat → Nat) : Prop where
  asked : ∀ j < y.val.length, time j < l.length ∧ ask (l.take (time j)) = .inr (y.first (j + 1))
  first : ∀ j < y.val.length, ∀ i < time j, ask (l.take i) ≠ .inr (y.first (j + 1))
  order : ∀ j, j + 1 < y.val.length → time j < time (j + 1)

end Verif.Spec
