import Verif.Model.Evaluator
import Verif.Model.Fri
import Verif.Model.Grinding

/-!
# The prover

Models `src/starks/prover.rs`. The checks that debug builds add are in Verif/Model/Debug.lean. The
timing output (`instruments`) and the logging are not modelled. With the `parallel` feature the maps
over rows and columns run in parallel: see Verif/Model/Parallel.lean.
-/

namespace Verif
noncomputable section
open Polynomial
variable {F T Ch : Type} [Field F] [DecidableEq F]

/-- The error type `ProvingError` (src/starks/prover.rs:41-43). -/
inductive ProvingError where
  | wrongParameter
  deriving DecidableEq, Repr

/-- `Round1` (src/starks/prover.rs:45-56). -/
structure Round1 (F Ch : Type) [Field F] where
  tracePolys : List F[X]
  ldeTrace : TraceTable F
  ldeTraceMerkleTrees : List Merkle.Tree
  ldeTraceMerkleRoots : List Commitment
  rapChallenges : Ch

/-- `Round2` (src/starks/prover.rs:58-69). -/
structure Round2 (F : Type) [Field F] where
  compositionPolyEven : F[X]
  ldeCompositionPolyEvenEvaluations : List F
  compositionPolyMerkleTree : Merkle.Tree
  compositionPolyRoot : Commitment
  compositionPolyOdd : F[X]
  ldeCompositionPolyOddEvaluations : List F

/-- `Round3` (src/starks/prover.rs:71-75). -/
structure Round3 (F : Type) where
  traceOodEvaluations : List (List F)
  compositionPolyEvenOodEvaluation : F
  compositionPolyOddOodEvaluation : F

/-- `Round4` (src/starks/prover.rs:77-83). -/
structure Round4 (F : Type) where
  friLastValue : F
  friLayersMerkleRoots : List Commitment
  deepPolyOpenings : List (DeepPolynomialOpenings F)
  queryList : List (FriDecommitment F)
  nonce : Nat

/-- `batch_commit` (src/starks/prover.rs:96-104). -/
def batchCommit (env : Env F T) (vectors : List (List F)) : Outcome Empty (Merkle.Tree × Commitment) := do
  let tree ← Merkle.build env.hashes.leafBatch env.hashes.node vectors
  return (tree, tree.root)

/-- `compute_lde_trace_evaluations` (src/starks/prover.rs:161-185). -/
def computeLdeTraceEvaluations (env : Env F T) (polys : List F[X]) (domain : Domain F) :
    Outcome Empty (List (List F)) :=
  mapOutcome (fun p => evaluateOnLde env.ta p domain.blowupFactor domain.interpolationDomainSize
    domain.cosetOffset) polys

/-- `interpolate_and_commit` (src/starks/prover.rs:126-159). -/
def interpolateAndCommit (env : Env F T) (trace : TraceTable F) (domain : Domain F) (t : T) :
    Outcome Empty ((List F[X] × List (List F) × Merkle.Tree × Commitment) × T) := do
  let polys ← trace.computeTracePolys env.ta
  let evaluations ← computeLdeTraceEvaluations env polys domain
  let ldeTrace ← TraceTable.newFromCols evaluations
  let rows ← ldeTrace.rows
  let commit ← batchCommit env rows
  return ((polys, evaluations, commit.1, commit.2), env.tr.append t commit.2.val)

/-- `AIR::build_rap_challenges` (src/starks/traits.rs:32) for the number of challenges the AIR draws. -/
def buildRapChallenges (env : Env F T) (air : Air F Ch) (t : T) : Ch × T :=
  let r := env.samples air.numRapChallenges t
  (air.rapChallenges r.1, r.2)

/-- `round_1_randomized_air_with_preprocessing` (src/starks/prover.rs:187-224). -/
def round1 (env : Env F T) (air : Air F Ch) (mainTrace : TraceTable F) (domain : Domain F) (t : T) :
    Outcome Empty (Round1 F Ch × T) := do
  let main ← interpolateAndCommit env mainTrace domain t
  let rap := buildRapChallenges env air main.2
  let auxTrace ← air.buildAuxiliaryTrace mainTrace rap.1
  if auxTrace.nCols = 0 then
    let ldeTrace ← TraceTable.newFromCols main.1.2.1
    return (⟨main.1.1, ldeTrace, [main.1.2.2.1], [main.1.2.2.2], rap.1⟩, rap.2)
  else
    let aux ← interpolateAndCommit env auxTrace domain rap.2
    let ldeTrace ← TraceTable.newFromCols (main.1.2.1 ++ aux.1.2.1)
    return (⟨main.1.1 ++ aux.1.1, ldeTrace, [main.1.2.2.1, aux.1.2.2.1],
      [main.1.2.2.2, aux.1.2.2.2], rap.1⟩, aux.2)

/-- `round_2_compute_composition_polynomial` (src/starks/prover.rs:226-286). -/
def round2 (env : Env F T) (air : Air F Ch) (domain : Domain F) (r1 : Round1 F Ch)
    (transitionCoeffs boundaryCoeffs : List (F × F)) : Outcome Empty (Round2 F) := do
  let boundary ← air.boundaryConstraints r1.rapChallenges
  let evaluations ← evaluateConstraints env.ta air boundary r1.ldeTrace domain transitionCoeffs
    boundaryCoeffs r1.rapChallenges
  let h ← computeCompositionPoly env.ta evaluations domain.cosetOffset
  let parts := evenOdd h
  let even ← evaluateOnLde env.ta parts.1 domain.blowupFactor domain.interpolationDomainSize
    domain.cosetOffset
  let odd ← evaluateOnLde env.ta parts.2 domain.blowupFactor domain.interpolationDomainSize
    domain.cosetOffset
  let commit ← batchCommit env ((even.zip odd).map fun x => [x.1, x.2])
  return ⟨parts.1, even, commit.1, commit.2, parts.2, odd⟩

/-- `round_3_evaluate_polynomials_in_out_of_domain_element` (src/starks/prover.rs:288-325). -/
def round3 (air : Air F Ch) (domain : Domain F) (r1 : Round1 F Ch) (r2 : Round2 F) (z : F) :
    Round3 F :=
  let z2 := z ^ 2
  { compositionPolyEvenOodEvaluation := r2.compositionPolyEven.eval z2
    compositionPolyOddOodEvaluation := r2.compositionPolyOdd.eval z2
    traceOodEvaluations := Frame.getTraceEvaluations r1.tracePolys z air.context.transitionOffsets
      domain.tracePrimitiveRoot }

/-- The terms of one trace polynomial in the DEEP composition polynomial
(src/starks/prover.rs:456-475). `eval[i]` beyond the row panics. -/
def deepTraceTerm (i : Nat) (tj : F[X]) (frame : List (List F)) (offsets : List Nat) (z g : F)
    (gammas : List F) : Outcome Empty F[X] :=
  ((frame.zip offsets).zip (gammas.drop (i * frame.length))).foldlM (fun acc x => do
    let v ← index x.1.1 i
    return acc + ruffini (tj - C v) (z * g ^ x.1.2) * C x.2) 0

/-- `compute_deep_composition_poly` (src/starks/prover.rs:410-482). -/
def computeDeepCompositionPoly (air : Air F Ch) (polys : List F[X]) (r2 : Round2 F) (r3 : Round3 F)
    (z g : F) (gamma gammaP : F) (traceGammas : List F) : Outcome Empty F[X] := do
  let z2 := z ^ 2
  let h1 := ruffini (C gamma * (r2.compositionPolyEven - C r3.compositionPolyEvenOodEvaluation)) z2
  let h2 := ruffini (C gammaP * (r2.compositionPolyOdd - C r3.compositionPolyOddOodEvaluation)) z2
  let traceTerm ← ((List.range polys.length).zip polys).foldlM (fun acc x => do
    let v ← deepTraceTerm x.1 x.2 r3.traceOodEvaluations air.context.transitionOffsets z g traceGammas
    return acc + v) (0 : F[X])
  return h1 + h2 + traceTerm

/-- One opening of `open_deep_composition_poly` (src/starks/prover.rs:496-527). -/
def openDeepAt (env : Env F T) (domain : Domain F) (r1 : Round1 F Ch) (r2 : Round2 F) (iota : Nat) :
    Outcome Empty (DeepPolynomialOpenings F) :=
  if domain.ldeRootsOfUnityCoset.length = 0 then .panic
  else do
    let idx := iota % domain.ldeRootsOfUnityCoset.length
    let proof ← Outcome.ofOptionUnwrap (r2.compositionPolyMerkleTree.getProofByPos env.hashes.node idx)
    let even ← index r2.ldeCompositionPolyEvenEvaluations idx
    let odd ← index r2.ldeCompositionPolyOddEvaluations idx
    let proofs ← mapOutcome (fun t : Merkle.Tree => Outcome.ofOptionUnwrap
      (t.getProofByPos env.hashes.node idx)) r1.ldeTraceMerkleTrees
    let row ← r1.ldeTrace.getRow idx
    return ⟨proof, even, odd, proofs, row⟩

/-- `open_deep_composition_poly` (src/starks/prover.rs:484-529). -/
def openDeep (env : Env F T) (domain : Domain F) (r1 : Round1 F Ch) (r2 : Round2 F)
    (iotas : List Nat) : Outcome Empty (List (DeepPolynomialOpenings F)) :=
  mapOutcome (openDeepAt env domain r1 r2) iotas

/-- `round_4_compute_and_run_fri_on_the_deep_composition_polynomial` (src/starks/prover.rs:327-404).
Also returns the transcript. -/
def round4 (env : Env F T) (air : Air F Ch) (domain : Domain F) (r1 : Round1 F Ch) (r2 : Round2 F)
    (r3 : Round3 F) (z : F) (t : T) : Outcome Empty (Round4 F × T) := do
  let offset : F := (air.context.proofOptions.cosetOffset : F)
  let gamma := env.sample t
  let gammaP := env.sample gamma.2
  let gammas := env.samples (air.context.transitionOffsets.length * air.context.traceColumns) gammaP.2
  let deep ← computeDeepCompositionPoly air r1.tracePolys r2 r3 z domain.tracePrimitiveRoot gamma.1
    gammaP.1 gammas.1
  let size := domain.ldeRootsOfUnityCoset.length
  let fri ← Fri.commitPhase env domain.rootOrder deep gammas.2 offset size
  let challenge := env.tr.challenge fri.2.2
  let nonce ← Outcome.ofOptionUnwrap (Grinding.generateNonce env.keccak challenge.1
    air.context.proofOptions.grindingFactor.toNat)
  let t := env.tr.append challenge.2 (beBytes 8 nonce)
  let queries ← Fri.queryPhase env air.context.proofOptions.friNumberOfQueries size fri.2.1 t
  let openings ← openDeep env domain r1 r2 queries.2.1
  return (⟨fri.1, fri.2.1.map (·.merkleTree.root), openings, queries.1, nonce⟩, queries.2.2)

/-- The constructor `A::new(trace_length, pub_inputs, proof_options)` of an AIR
(src/starks/traits.rs:20-24); it may panic. -/
abbrev AirNew (F Ch PI : Type) := Nat → PI → ProofOptions → Outcome Empty (Air F Ch)

/-- `prove` (src/starks/prover.rs:532-766). It never returns an error: the sampling of the
out-of-domain point not ending is modelled as a panic (there is no result). -/
def prove {PI : Type} (env : Env F T) (new : AirNew F Ch PI) (mainTrace : TraceTable F) (pubInputs : PI)
    (options : ProofOptions) : Outcome Empty (StarkProof F) := do
  let air ← new mainTrace.nRows pubInputs options
  let domain ← Domain.new env.ta air
  let r1 ← round1 env air mainTrace domain env.tr.init
  let boundary ← air.boundaryConstraints r1.1.rapChallenges
  let alphasB := env.samples boundary.length r1.2
  let betasB := env.samples boundary.length alphasB.2
  let alphasT := env.samples air.context.numTransitionConstraints betasB.2
  let betasT := env.samples air.context.numTransitionConstraints alphasT.2
  let r2 ← round2 env air domain r1.1 (alphasT.1.zip betasT.1) (alphasB.1.zip betasB.1)
  let t := env.tr.append betasT.2 r2.compositionPolyRoot.val
  let z ← Outcome.ofOptionUnwrap (env.tr.sampleZOod env.ofDigest domain.ldeRootsOfUnityCoset
    domain.traceRootsOfUnity t)
  let r3 := round3 air domain r1.1 r2 z.1
  let t := env.appendField z.2 r3.compositionPolyEvenOodEvaluation
  let t := env.appendField t r3.compositionPolyOddOodEvaluation
  let t := r3.traceOodEvaluations.foldl (fun t row => row.foldl env.appendField t) t
  let r4 ← round4 env air domain r1.1 r2 r3 z.1 t
  return { traceLength := air.traceLength
           ldeTraceMerkleRoots := r1.1.ldeTraceMerkleRoots
           traceOodFrameEvaluations := ⟨r3.traceOodEvaluations.flatten, r1.1.tracePolys.length⟩
           compositionPolyRoot := r2.compositionPolyRoot
           compositionPolyEvenOodEvaluation := r3.compositionPolyEvenOodEvaluation
           compositionPolyOddOodEvaluation := r3.compositionPolyOddOodEvaluation
           friLayersMerkleRoots := r4.1.friLayersMerkleRoots
           friLastValue := r4.1.friLastValue
           queryList := r4.1.queryList
           deepPolyOpenings := r4.1.deepPolyOpenings
           nonce := r4.1.nonce }

end
end Verif
