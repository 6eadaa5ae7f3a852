import Verif.Spec.Probability
import Verif.Spec.Random

/-!
# The game with digests for draws

The verifier does not draw field elements and positions. It asks the transcript for digests of 32 bytes and derives
the challenges from them.
-/

namespace Verif.Spec

/-- The challenge of a digest: its lowest 251 bits, read as a big-endian number. -/
def challengeOf (d : Commitment) : FE := ((beNat d.val % 2 ^ 251 : Nat) : FE)

/-- The position of a digest among `2^n`: its first eight bytes, read as a big-endian number. -/
def positionOf (n : Nat) (d : Commitment) : Fin (2 ^ n) :=
  ⟨beNat (d.val.take 8) % 2 ^ n, Nat.mod_lt _ (by positivity)⟩

/-- The out-of-domain point of a list of digests: the first challenge that is not a point of the domains, if there is
one. -/
def pointOf (domains : List FE) (ds : List Commitment) : Option FE :=
  (ds.map challengeOf).find? fun x => decide (x ∉ domains)

/-- The digests that a transcript gives one after the other. -/
def digests {T : Type} (tr : Transcript T) : Nat → T → List Commitment
  | 0, _ => []
  | n + 1, t => (tr.challenge t).1 :: digests tr n (tr.challenge t).2

/-- Digests for all the draws of a verifier: for `e` challenges of the auxiliary trace, and for the draws as in `Draws`,
with `r` digests from which the out-of-domain point is chosen. -/
abbrev DigestDraws (e nb nt k a q r : Nat) : Type :=
  (Fin e → Commitment) × (Fin nb → Commitment) × (Fin nb → Commitment) × (Fin nt → Commitment) ×
    (Fin nt → Commitment) × (Fin r → Commitment) × Commitment × Commitment × (Fin k → Commitment) ×
    (Fin a → Commitment) × (Fin q → Commitment)

/-- The draws of the game that are derived from digests; none when all the digests for the out-of-domain point are
those of points of the domains. -/
def derived (domains : List FE) {e nb nt k a q r : Nat} (n : Nat) :
    DigestDraws e nb nt k a q r → Option ((Fin e → FE) × Draws FE nb nt k a q (2 ^ n))
  | (ε, αB, βB, αT, βT, points, γe, γo, γ, ζ, ι) =>
    (pointOf domains (List.ofFn points)).map fun z =>
      (challengeOf ∘ ε, challengeOf ∘ αB, challengeOf ∘ βB, challengeOf ∘ αT, challengeOf ∘ βT, z, challengeOf γe,
        challengeOf γo, challengeOf ∘ γ, challengeOf ∘ ζ, positionOf n ∘ ι)

/-- The digests for the draws up to the positions, completed by those for the positions. -/
def withPositions {e nb nt k a q r : Nat} (early : DigestDraws e nb nt k a 0 r) (positions : Fin q → Commitment) :
    DigestDraws e nb nt k a q r :=
  match early with
  | (ε, αB, βB, αT, βT, points, γe, γo, γ, ζ, _) => (ε, αB, βB, αT, βT, points, γe, γo, γ, ζ, positions)

/-- The number of elements of the field over the number of values that a challenge can take, for each of the
`challenges`; for the out-of-domain point the values that are points of the domains do not count. -/
def derivationFactor (challenges domainPoints : Nat) : ℚ :=
  (P / 2 ^ 251) ^ challenges * (P / (2 ^ 251 - domainPoints))

end Verif.Spec
