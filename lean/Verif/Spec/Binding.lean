import Verif.Model.Merkle

/-!
# When two openings of a Merkle tree disagree
-/

namespace Verif.Spec

/-- The two hashes that are combined at height `k` when the hash `h` of the leaf number `index` is carried
along a path of siblings towards the root. -/
def combinedAt (node : Commitment → Commitment → Commitment) : List Commitment → Nat → Commitment → Nat →
    Option (Commitment × Commitment)
  | [], _, _, _ => none
  | s :: _, index, h, 0 => some (if index % 2 = 0 then (h, s) else (s, h))
  | s :: path, index, h, k + 1 =>
    combinedAt node path (index / 2) (if index % 2 = 0 then node h s else node s h) k

/-- The two openings exhibit a collision: their leaves have the same hash, or at some height they combine
different pairs of hashes to the same hash. -/
def Collide {V : Type} (leaf : V → Commitment) (node : Commitment → Commitment → Commitment) (index : Nat)
    (path : List Commitment) (v : V) (path' : List Commitment) (v' : V) : Prop :=
  (v ≠ v' ∧ leaf v = leaf v') ∨
  ∃ k p q, combinedAt node path index (leaf v) k = some p ∧
    combinedAt node path' index (leaf v') k = some q ∧ p ≠ q ∧ node p.1 p.2 = node q.1 q.2

end Verif.Spec
