import Verif.Model.Verifier
import Verif.Spec.Air

/-!
# The challenges a prover uses

`prove` draws its challenges inside; this relation lists what each of its computations received.
-/

namespace Verif.Spec
open Polynomial
variable {F T Ch : Type} [Field F] [DecidableEq F]

/-- The prover computed the proof `proof` from the trace `mainTrace` using the challenges `c`:
* `r1` is the outcome of the first round and the auxiliary trace was built with `c.rapChallenges`;
* the composition polynomial was built with `c.boundaryCoeffs` and `c.transitionCoeffs`;
* the polynomials were evaluated at `c.z`;
* the DEEP polynomial `deep` was built with `c.gammaEven`, `c.gammaOdd` and `c.traceTermCoeffs`;
* the FRI layers commit to the polynomials `ps k`, each the fold of the one before with `c.zetas`, and
  the last value is the constant coefficient of the last fold;
* the nonce was found for a challenge for which it has `c.leadingZerosCount` zeros;
* the queries and the openings answer the indices `c.iotas`;
and the proof is made of these results. -/
structure ProverUses (env : Env F T) (air : Air F Ch) (d : Domain F) (mainTrace : TraceTable F)
    (proof : StarkProof F) (c : Challenges F Ch) (r1 : Round1 F Ch) (r2 : Round2 F) (deep : F[X])
    (layers : List (Fri.FriLayer F)) (ps : Nat → F[X]) : Prop where
  first : ∃ t, round1 env air mainTrace d env.tr.init = .ok (r1, t)
  rap : r1.rapChallenges = c.rapChallenges
  second : round2 env air d r1 c.transitionCoeffs c.boundaryCoeffs = .ok r2
  deep_poly : computeDeepCompositionPoly air r1.tracePolys r2 (round3 air d r1 r2 c.z) c.z
    d.tracePrimitiveRoot c.gammaEven c.gammaOdd c.traceTermCoeffs.flatten = .ok deep
  fri_start : ps 0 = deep
  fri_fold : ∀ k ζ, c.zetas[k]? = some ζ → ps (k + 1) = Fri.foldPolynomial (ps k) ζ
  fri_layers : ∀ k l, layers[k]? = some l → Fri.FriLayer.new env (ps k)
    ((air.context.proofOptions.cosetOffset : F) ^ 2 ^ k) (d.ldeRootsOfUnityCoset.length / 2 ^ k) = .ok l
  fri_count : layers.length = d.rootOrder
  fri_zetas : c.zetas.length = layers.length
  fri_last : proof.friLastValue = (coefficients (ps layers.length)).headD 0
  nonce : ∃ challenge, Grinding.generateNonce env.keccak challenge
      air.context.proofOptions.grindingFactor.toNat = some proof.nonce ∧
    c.leadingZerosCount = Grinding.leadingZerosOf env.keccak challenge proof.nonce
  queries : mapOutcome (Fri.answerQuery env layers) c.iotas = .ok proof.queryList
  openings : openDeep env d r1 r2 c.iotas = .ok proof.deepPolyOpenings
  traceLength : proof.traceLength = air.traceLength
  traceRoots : proof.ldeTraceMerkleRoots = r1.ldeTraceMerkleRoots
  frame : proof.traceOodFrameEvaluations
    = ⟨(round3 air d r1 r2 c.z).traceOodEvaluations.flatten, r1.tracePolys.length⟩
  compositionRoot : proof.compositionPolyRoot = r2.compositionPolyRoot
  evenOod : proof.compositionPolyEvenOodEvaluation
    = (round3 air d r1 r2 c.z).compositionPolyEvenOodEvaluation
  oddOod : proof.compositionPolyOddOodEvaluation
    = (round3 air d r1 r2 c.z).compositionPolyOddOodEvaluation
  friRoots : proof.friLayersMerkleRoots = layers.map (·.merkleTree.root)

/-- The main trace `rows`, of `k` columns, and the auxiliary trace `aux` together are a trace of the
declared number of columns that satisfies the AIR for the challenges `ch`. An auxiliary trace without
columns is left out. -/
def SatisfiesExtended (air : Air F Ch) (rows : List (List F)) (k : Nat) (ch : Ch) (aux : TraceTable F) :
    Prop :=
  (aux.nCols = 0 ∧ k = air.context.traceColumns ∧ Satisfies air rows air.context.traceColumns ch) ∨
  ∃ auxRows : List (List F), 0 < aux.nCols ∧ aux.table = auxRows.flatten ∧
    auxRows.length = rows.length ∧ (∀ r ∈ auxRows, r.length = aux.nCols) ∧
    k + aux.nCols = air.context.traceColumns ∧
    Satisfies air (List.zipWith (· ++ ·) rows auxRows) air.context.traceColumns ch

/-- `full` are the rows of the main trace `rows`, of `k` columns, together with those of the auxiliary trace, if it
has columns; they have the declared number of columns. -/
def JoinedRows (air : Air F Ch) (rows : List (List F)) (k : Nat) (aux : TraceTable F) (full : List (List F)) : Prop :=
  (aux.nCols = 0 ∧ k = air.context.traceColumns ∧ full = rows) ∨
  ∃ auxRows : List (List F), 0 < aux.nCols ∧ aux.table = auxRows.flatten ∧
    auxRows.length = rows.length ∧ (∀ r ∈ auxRows, r.length = aux.nCols) ∧
    k + aux.nCols = air.context.traceColumns ∧ full = List.zipWith (· ++ ·) rows auxRows

end Verif.Spec
