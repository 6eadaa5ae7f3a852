import Verif.Spec.FiatShamir

/-!
# The transcript as a function of the messages of a prover
-/

namespace Verif.Spec
variable {T Ch : Type}

/-- A message as the transcript gets it: byte strings, and with the last message a nonce. -/
abbrev Sent : Type := List Bytes × Nat

/-- The messages in a proof: the root of the main trace, the root of the auxiliary trace if there is one, the root of the
composition polynomial, the out-of-domain values, the roots of the layers of FRI, and the last value with the nonce. -/
def sentBy (toBytes : FE → Bytes) (proof : StarkProof FE) : List Sent :=
  [((proof.ldeTraceMerkleRoots.take 1).map (·.val), 0), (((proof.ldeTraceMerkleRoots.drop 1).take 1).map (·.val), 0),
    ([proof.compositionPolyRoot.val], 0),
    ((proof.compositionPolyEvenOodEvaluation :: proof.compositionPolyOddOodEvaluation ::
      proof.traceOodFrameEvaluations.data).map toBytes, 0)]
    ++ proof.friLayersMerkleRoots.map (fun root => ([root.val], 0)) ++ [([toBytes proof.friLastValue], proof.nonce)]

/-- The state after what the verifier draws once it has `j` messages: `e` challenges after the first, `draws` coefficients
after the second, the out-of-domain point after the third, `2 + k` coefficients after the fourth and one challenge after
every other. -/
noncomputable def drawnAfter (env : Env FE T) (lde trace : List FE) (e draws k : Nat) : Nat → T → T
  | 0, t => t
  | 1, t => env.tr.after e t
  | 2, t => env.tr.after draws t
  | 3, t => ((env.tr.sampleZOod env.ofDigest lde trace t).map (·.2)).getD t
  | 4, t => env.tr.after (2 + k) t
  | _, t => env.tr.after 1 t

/-- The state after the messages `l` if it was `t` after `j` messages. -/
noncomputable def hearing (env : Env FE T) (lde trace : List FE) (e draws k : Nat) : Nat → T → List Sent → T
  | _, t, [] => t
  | j, t, m :: l =>
    hearing env lde trace e draws k (j + 1) (m.1.foldl env.tr.append (drawnAfter env lde trace e draws k j t)) l

/-- What the transcript gives for the messages so far: the digests it would give next, and for the last message the digests
after its nonce. -/
noncomputable def replyFor (env : Env FE T) (lde trace : List FE) (e nb nt k q r : Nat) (l : List Sent) :
    Reply e nb nt k q r :=
  let t := hearing env lde trace e (nb + nb + nt + nt) k 0 env.tr.init l
  let next := fun i => (env.tr.challenge (env.tr.after i t)).1
  let nonce := (l.getLastD default).2
  let later := env.tr.append (env.tr.challenge t).2 (beBytes 8 nonce)
  { ε := fun i => next i
    αB := fun i => next i
    βB := fun i => next (nb + i)
    αT := fun i => next (nb + nb + i)
    βT := fun i => next (nb + nb + nt + i)
    points := fun i => next i
    γe := next 0
    γo := next 1
    γ := fun i => next (2 + i)
    ζ := next 0
    ι := fun i => (env.tr.challenge (env.tr.after i later)).1
    work := env.keccak ((next 0).val ++ leBytes 8 nonce) }

/-- What a `Reading` says the messages of a proof stand for is what its roots commit to and what it claims. -/
structure Understands (rd : Reading Sent) (toBytes : FE → Bytes) (proof : StarkProof FE) (a : Nat) (cols : List (Nat → FE))
    (even odd : Nat → FE) (layers : Nat → List FE) : Prop where
  columns : rd.columns (sentBy toBytes proof) = cols
  halves : rd.halves ((sentBy toBytes proof).getD 2 default) = (even, odd)
  frame : (rd.claims ((sentBy toBytes proof).getD 3 default)).traceOodFrameEvaluations = proof.traceOodFrameEvaluations
  even : (rd.claims ((sentBy toBytes proof).getD 3 default)).compositionPolyEvenOodEvaluation
    = proof.compositionPolyEvenOodEvaluation
  odd : (rd.claims ((sentBy toBytes proof).getD 3 default)).compositionPolyOddOodEvaluation
    = proof.compositionPolyOddOodEvaluation
  layer : ∀ j < a, ∀ s, rd.layer ((sentBy toBytes proof).getD (4 + j) default) s = (layers j).getD s 0
  last : rd.last ((sentBy toBytes proof).getD (4 + a) default) = proof.friLastValue

end Verif.Spec
