import Verif.Spec.Verifier
import Verif.Spec.Binding

/-!
# Proximity to polynomials and the FRI game

`w` generates a domain of `2^(a+b)` points, shifted by `h`. A committed layer is a function on the indices of its
domain, which need not come from a polynomial.
-/

namespace Verif.Spec
open Polynomial
variable {F : Type} [Field F] [DecidableEq F]

/-- `P` holds for all but at most `n` values. -/
def AllBut (n : Nat) (P : F → Prop) : Prop := ∃ bad : Finset F, bad.card ≤ n ∧ ∀ x ∉ bad, P x

/-- `k` values are drawn one after another; whatever the first ones are, `n` values at most are excluded for the
next one, and when none of the drawn values is excluded then `P` holds for their list. -/
def AllButDraws (n : Nat) : Nat → (List F → Prop) → Prop
  | 0, P => P []
  | k + 1, P => AllBut n fun x => AllButDraws n k fun l => P (x :: l)

/-- The `N` values `f` at the points `x` are those of a polynomial of degree below `k`, except for at most `R`
of them. -/
def NearPoly (N : Nat) (x f : Nat → F) (k R : Nat) : Prop :=
  ∃ p : F[X], p.degree < k ∧ ((Finset.range N).filter fun s => f s ≠ p.eval (x s)).card ≤ R

/-- A number `R` of errors among `N` points for which lines of words keep their distance from polynomials with fewer
than `d` zeros, except for `m` of their members: either any three sets of `N - R` points have `d` points in common,
or, roughly, the cube of the part `1 - R / N` is above `d / N`, and then `m` is the larger the closer the two are. -/
def ProximityGap (N d R m : Nat) : Prop :=
  3 * R + d ≤ N ∧ R + 1 ≤ m ∨ (R + 2) * N ^ 3 + (m + 1) * d * N ^ 2 < (m + 1) * (N - R) ^ 3

/-- A number `R` of errors up to which words on `2^(a+b)` points are decoded to polynomials of degree at most `2^a`:
the polynomials are determined by the words, and random combinations of words do not come closer to polynomials,
except for `m` coefficients. -/
structure DecodingRadius (a b R m : Nat) : Prop where
  unique : 2 * R + 2 ^ a + 1 ≤ 2 ^ (a + b)
  gap : ProximityGap (2 ^ (a + b)) (2 ^ a) R m

/-- The query with index `s` is consistent with the committed layers `0, .., a - 1`, the challenges `ζ` and the
last value: in every layer the fold of the values at the index and half a domain further is the value in the
next layer, and in the last layer it is the last value. -/
def QueryPasses (a b : Nat) (h w : F) (layer : Nat → Nat → F) (last : F) (ζ : Nat → F) (s : Nat) : Prop :=
  ∀ i < a, foldValue (ζ i) ((w ^ s * h) ^ 2 ^ i) (layer i (s % 2 ^ (a + b - i)))
      (layer i ((s + 2 ^ (a + b - i) / 2) % 2 ^ (a + b - i)))
    = if i + 1 < a then layer (i + 1) (s % 2 ^ (a + b - (i + 1))) else last

/-- A way to play the prover of FRI: the values it commits to in each layer, and its last value, from the
challenges it has seen so far. -/
structure FriStrategy (F : Type) where
  layer : List F → Nat → F
  last : List F → F

/-- The query `s` passes when the verifier of FRI draws the challenges `ζ`. -/
def FriStrategy.Passes (S : FriStrategy F) (a b : Nat) (h w : F) (ζ : List F) (s : Nat) : Prop :=
  QueryPasses a b h w (fun i => S.layer (ζ.take i)) (S.last ζ) (fun i => ζ.getD i 0) s

/-- The lists of values of the FRI layers of a proof are committed by its roots: there is a list of the size of
the domain for each of the `a` layers, and the root of the layer is the root of its tree. -/
structure CommitsLayers {T : Type} (env : Env F T) (proof : StarkProof F) (a b : Nat) (layers : Nat → List F)
    (trees : Nat → Merkle.Tree) : Prop where
  length : ∀ i < a, (layers i).length = 2 ^ (a + b - i)
  build : ∀ i < a, Merkle.build env.hashes.leaf env.hashes.node (layers i) = .ok (trees i)
  root : ∀ i < a, proof.friLayersMerkleRoots[i]? = some (trees i).root

/-- The answer `q` to the query `iota` exhibits a collision of the hash functions: one of its openings collides
with the opening of the committed value at the same index of the same layer. -/
def QueryCollides {T : Type} (env : Env F T) (a b : Nat) (layers : Nat → List F) (trees : Nat → Merkle.Tree)
    (iota : Nat) (q : FriDecommitment F) : Prop :=
  ∃ j < a, ∃ index path v own u,
    (index = iota ∧ q.layersAuthPaths[j]? = some path ∧ q.layersEvaluations[j]? = some v ∨
      index = (iota + 2 ^ (a + b - j) / 2) % 2 ^ (a + b - j) ∧ q.layersAuthPathsSym[j]? = some path ∧
        q.layersEvaluationsSym[j]? = some v) ∧
    (trees j).getProofByPos env.hashes.node (index % 2 ^ (a + b - j)) = some own ∧
    (layers j)[index % 2 ^ (a + b - j)]? = some u ∧
    Collide env.hashes.leaf env.hashes.node index path.merklePath v own.merklePath u

end Verif.Spec
