import Verif.Spec.Soundness

/-!
# The protocol of docs/src/starks/protocol.md

The interaction of step 1 as a list of events on the transcript, and the checks of steps 2 to 4.
-/

namespace Verif.Spec
variable {F T Ch : Type} [Field F] [DecidableEq F]

/-- What happens on a transcript: the prover sends bytes, or a challenge is drawn. -/
inductive Event where
  | send (bytes : Bytes)
  | draw (digest : Commitment)

/-- The events happen, in this order, from the state `t` to the state `t'`. -/
def Happens (tr : Transcript T) : List Event → T → T → Prop
  | [], t, t' => t = t'
  | .send bytes :: events, t, t' => Happens tr events (tr.append t bytes) t'
  | .draw digest :: events, t, t' => (tr.challenge t).1 = digest ∧ Happens tr events (tr.challenge t).2 t'

/-- The challenges drawn in a run of the protocol. -/
structure Drawn where
  rap : List Commitment
  alphaB : List Commitment
  betaB : List Commitment
  alphaT : List Commitment
  betaT : List Commitment
  /-- the candidates for the out-of-domain point that were rejected -/
  rejected : List Commitment
  point : Commitment
  gammaEven : Commitment
  gammaOdd : Commitment
  gammas : List Commitment
  zetas : List Commitment
  grinding : Commitment
  queries : List Commitment

/-- The interaction, from the first commitment to the queries. -/
def protocolEvents (env : Env F T) (proof : StarkProof F) (x : Drawn) : List Event :=
  (proof.ldeTraceMerkleRoots.take 1).map (fun root => .send root.val) ++ x.rap.map .draw ++
  ((proof.ldeTraceMerkleRoots.drop 1).take 1).map (fun root => .send root.val) ++
  x.alphaB.map .draw ++ x.betaB.map .draw ++ x.alphaT.map .draw ++ x.betaT.map .draw ++
  [.send proof.compositionPolyRoot.val] ++ x.rejected.map .draw ++ [.draw x.point] ++
  [.send (env.toBytes proof.compositionPolyEvenOodEvaluation),
    .send (env.toBytes proof.compositionPolyOddOodEvaluation)] ++
  proof.traceOodFrameEvaluations.data.map (fun v => .send (env.toBytes v)) ++
  [.draw x.gammaEven, .draw x.gammaOdd] ++ x.gammas.map .draw ++
  (proof.friLayersMerkleRoots.zip x.zetas).flatMap (fun y => [.send y.1.val, .draw y.2]) ++
  [.send (env.toBytes proof.friLastValue), .draw x.grinding, .send (beBytes 8 proof.nonce)] ++
  x.queries.map .draw

/-- The drawn digests as challenges, for an extended domain of `2^m` points. -/
def Drawn.challenges (env : Env F T) (air : Air F Ch) (proof : StarkProof F) (m : Nat) (x : Drawn) :
    Challenges F Ch where
  z := env.ofDigest x.point
  boundaryCoeffs := (x.alphaB.map env.ofDigest).zip (x.betaB.map env.ofDigest)
  transitionCoeffs := (x.alphaT.map env.ofDigest).zip (x.betaT.map env.ofDigest)
  traceTermCoeffs := coeffRows air.context.transitionOffsets.length air.context.traceColumns
    (x.gammas.map env.ofDigest)
  gammaEven := env.ofDigest x.gammaEven
  gammaOdd := env.ofDigest x.gammaOdd
  zetas := x.zetas.map env.ofDigest
  iotas := x.queries.map fun digest => beNat (digest.val.take 8) % 2 ^ m
  rapChallenges := air.rapChallenges (x.rap.map env.ofDigest)
  leadingZerosCount := Grinding.leadingZerosOf env.keccak x.grinding proof.nonce

/-- The point `v` is on the trace domain, generated by `g`, or on the extended one, generated by `w` and moved by
`h`. -/
def OnDomains (a b : Nat) (g w h v : F) : Prop :=
  (∃ i < 2 ^ (a + b), v = w ^ i * h) ∨ ∃ i < 2 ^ a, v = g ^ i

/-- The digests `x` are the ones drawn in the interaction in which the prover sends the contents of `proof`. -/
structure Replays (env : Env F T) (air : Air F Ch) (proof : StarkProof F) (boundary : List (BoundaryConstraint F))
    (a b : Nat) (g w : F) (x : Drawn) : Prop where
  rap : x.rap.length = air.numRapChallenges
  constraints : air.boundaryConstraints (air.rapChallenges (x.rap.map env.ofDigest)) = .ok boundary
  alphaB : x.alphaB.length = boundary.length
  betaB : x.betaB.length = boundary.length
  alphaT : x.alphaT.length = air.context.numTransitionConstraints
  betaT : x.betaT.length = air.context.numTransitionConstraints
  rejected : ∀ digest ∈ x.rejected,
    OnDomains a b g w (air.context.proofOptions.cosetOffset : F) (env.ofDigest digest)
  point : ¬ OnDomains a b g w (air.context.proofOptions.cosetOffset : F) (env.ofDigest x.point)
  gammas : x.gammas.length = air.context.traceColumns * air.context.transitionOffsets.length
  zetas : x.zetas.length = proof.friLayersMerkleRoots.length
  queries : x.queries.length = air.context.proofOptions.friNumberOfQueries
  happens : ∃ t, Happens env.tr (protocolEvents env proof x) env.tr.init t

/-- The checks: enough queries, the proof of work, the claimed composition polynomial (step 2), the layers of every
query (step 3), and the DEEP value and the composition polynomial of every opening (step 4). The openings of the
trace are not checked against their commitments. -/
structure Checks (env : Env F T) (air : Air F Ch) (proof : StarkProof F) (boundary : List (BoundaryConstraint F))
    (a b : Nat) (g w : F) (c : Challenges F Ch) : Prop where
  queries : air.context.proofOptions.friNumberOfQueries ≤ proof.queryList.length
  grinding : air.context.proofOptions.grindingFactor.toNat ≤ c.leadingZerosCount
  composition : ∃ evals, air.computeTransition proof.traceOodFrameEvaluations c.rapChallenges = .ok evals ∧
    proof.compositionPolyEvenOodEvaluation + c.z * proof.compositionPolyOddOodEvaluation
      = compositionOf air g (fun j => frameCell proof.traceOodFrameEvaluations 0 j) boundary evals
          c.boundaryCoeffs c.transitionCoeffs c.z
  fri : ∀ (i : Nat) q iota, proof.queryList[i]? = some q → c.iotas[i]? = some iota →
    QueryHolds env proof c.zetas (a + b) iota (w ^ iota * (air.context.proofOptions.cosetOffset : F)) q
  deep : ∀ (i : Nat) iota o q, c.iotas[i]? = some iota → proof.deepPolyOpenings[i]? = some o →
    proof.queryList[i]? = some q →
    OpeningHolds env proof c iota g (w ^ iota * (air.context.proofOptions.cosetOffset : F)) o q

end Verif.Spec
