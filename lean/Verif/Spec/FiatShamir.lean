import Verif.Spec.Derivation
import Verif.Spec.Work
import Mathlib.Data.Set.Finite.List

/-!
# The game with a random function for verifier

The prover is not asked anything. It computes the digests of the verifier itself, from its own messages, and can do so for
as many messages as it likes before it shows any. Here the digests are the values of a random function of the messages up
to that point.
-/

namespace Verif.Spec
variable {M Ch : Type}

/-- What the messages of a prover stand for: the columns committed first, the columns of the auxiliary trace, the two halves
of the composition polynomial, the claims about the out-of-domain point, the layers of FRI and its last value. (The last
message also has the nonce; what the nonce is does not matter.) -/
structure Reading (M : Type) where
  main : M → List (Nat → FE)
  aux : M → List (Nat → FE)
  halves : M → (Nat → FE) × (Nat → FE)
  claims : M → StarkProof FE
  layer : M → Nat → FE
  last : M → FE

/-- The messages of a prover so far, at most `n`. -/
abbrev Told (M : Type) (n : Nat) : Type := { l : List M // l.length ≤ n }

noncomputable instance [Fintype M] (n : Nat) : Fintype (Told M n) :=
  @Fintype.ofFinite _ (List.finite_length_le M n).to_subtype

/-- The first `j` of these messages. -/
def Told.first {n : Nat} (l : Told M n) (j : Nat) : Told M n :=
  ⟨l.val.take j, (List.length_take_le' j l.val).trans l.property⟩

/-- What the random function gives for the messages so far: digests for each of the things a verifier may draw next, of
which only those for what it does draw after that many messages count. There is one more for the proof of work. -/
structure Reply (e nb nt k q r : Nat) where
  ε : Fin e → Commitment
  αB : Fin nb → Commitment
  βB : Fin nb → Commitment
  αT : Fin nt → Commitment
  βT : Fin nt → Commitment
  points : Fin r → Commitment
  γe : Commitment
  γo : Commitment
  γ : Fin k → Commitment
  ζ : Commitment
  ι : Fin q → Commitment
  work : Commitment

/-- The parts of a reply as a tuple. -/
def Reply.parts {e nb nt k q r : Nat} : Reply e nb nt k q r ≃ DigestDraws e nb nt k 1 q r × Commitment where
  toFun x := ((x.ε, x.αB, x.βB, x.αT, x.βT, x.points, x.γe, x.γo, x.γ, fun _ => x.ζ, x.ι), x.work)
  invFun := fun ((ε, αB, βB, αT, βT, points, γe, γo, γ, ζ, ι), work) =>
    ⟨ε, αB, βB, αT, βT, points, γe, γo, γ, ζ 0, ι, work⟩
  left_inv _ := rfl
  right_inv := fun ((ε, αB, βB, αT, βT, points, γe, γo, γ, ζ, ι), work) => by
    have : (fun _ : Fin 1 => ζ 0) = ζ := funext fun i => by rw [Subsingleton.elim i 0]
    simp only [this]

noncomputable instance {e nb nt k q r : Nat} : Fintype (Reply e nb nt k q r) := Fintype.ofEquiv _ Reply.parts.symm

/-- The digests of the verifier for the `a + 5` messages `l`: the challenges of the auxiliary trace after the main columns,
the coefficients of the constraints after the auxiliary columns, the point after the halves, the coefficients of the DEEP
values after the claims, a challenge after each layer of FRI and the positions after the last message. -/
def digestsFor {a e nb nt k q r : Nat} (H : Told M (a + 5) → Reply e nb nt k q r) (l : Told M (a + 5)) :
    DigestDraws e nb nt k a q r :=
  ((H (l.first 1)).ε, (H (l.first 2)).αB, (H (l.first 2)).βB, (H (l.first 2)).αT, (H (l.first 2)).βT,
    (H (l.first 3)).points, (H (l.first 4)).γe, (H (l.first 4)).γo, (H (l.first 4)).γ,
    fun i => (H (l.first (5 + i))).ζ, (H (l.first (a + 5))).ι)

variable [Inhabited M]

/-- The columns that the first two messages stand for. -/
def Reading.columns (rd : Reading M) (l : List M) : List (Nat → FE) :=
  rd.main (l.getD 0 default) ++ rd.aux (l.getD 1 default)

/-- The prover that sends these messages whatever the verifier draws. -/
def Reading.plays (rd : Reading M) (a : Nat) (l : List M) : StarkStrategy FE where
  halves _ _ _ _ := rd.halves (l.getD 2 default)
  claims _ _ _ _ _ := rd.claims (l.getD 3 default)
  fri _ _ _ _ _ _ _ _ :=
    { layer := fun ζ => rd.layer (l.getD (4 + ζ.length) default)
      last := fun _ => rd.last (l.getD (4 + a) default) }

/-- The messages convince the verifier: they are complete, the digest of the proof of work meets the target, and with the
draws derived from the digests the verifier is satisfied. -/
def Reading.Convinces (rd : Reading M) (air : Air FE Ch) (d : Domain FE) (a b : Nat) (w : FE) {nb nt k q r : Nat}
    (H : Told M (a + 5) → Reply air.numRapChallenges nb nt k q r) (l : Told M (a + 5)) : Prop :=
  l.val.length = a + 5 ∧
  (air.context.proofOptions.grindingFactor.toNat ≤ 64 ∧
    2 ^ air.context.proofOptions.grindingFactor.toNat ∣ beNat ((H l).work.val.take 8)) ∧
  ∃ x, derived (d.ldeRootsOfUnityCoset ++ d.traceRootsOfUnity) (a + b) (digestsFor H l) = some x ∧
    (rd.plays a l.val).Wins air d a b w (air.rapChallenges (List.ofFn x.1)) (rd.columns l.val) x.2

/-- The error for one attempt: the exceptions of all the draws over the number of values a challenge can take, and the
probability that a proof of work for the factor `g` is found and that the queries miss `R + 1` points. -/
def attemptError (nb nt columns offsets a b R m q g : Nat) : ℚ :=
  (2 * nb + 2 * nt + (4 * 2 ^ a + 3 * 2 ^ (a + b)) + (2 + columns * offsets + a) * m)
      / (2 ^ 251 - (2 ^ (a + b) + 2 ^ a))
    + 1 / 2 ^ g * (1 - (R + 1) / 2 ^ (a + b)) ^ q

end Verif.Spec
