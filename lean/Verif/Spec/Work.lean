import Verif.Spec.Oracle
import Verif.Lemmas.Bytes
import Verif.Model.Grinding

/-!
# Searching for a proof of work
-/

namespace Verif.Spec
variable {F T X D : Type} [Field F]

/-- The program with the digests of the proof of work given by `K`. All else, in particular the transcript, is that of
`env`. -/
def working (env : Env F T) (K : WorkMessage → Commitment) : Env F T :=
  { env with keccak := fun message => if h : message.length = 40 then K ⟨message, h⟩ else env.keccak message }

/-- The message of the proof of work for a seed and a nonce. -/
def workMessage (seed : Commitment) (nonce : Nat) : WorkMessage :=
  ⟨seed.val ++ leBytes 8 nonce, by rw [List.length_append, seed.property, length_leBytes]⟩

/-- The first `n` answers of the function `K` to a searcher who chooses every question from the answers so far. -/
def answers (K : X → D) (ask : List D → X) : Nat → List D
  | 0 => []
  | n + 1 => answers K ask n ++ [K (ask (answers K ask n))]

/-- The candidates the prover tries: those up to the nonce it finds, or all of them. -/
def tried (keccak : Bytes → Commitment) (seed : Commitment) (g : Nat) : Nat :=
  ((Grinding.generateNonce keccak seed g).map (· + 1)).getD (2 ^ 64 - 1)

end Verif.Spec
