import Verif.Model.Poly
import Verif.Model.Merkle
import Verif.Model.Transcript

/-!
# FRI, prover side

Models `src/starks/fri/fri_functions.rs`, `src/starks/fri/fri_commitment.rs` and
`src/starks/fri/mod.rs`.
-/

namespace Verif

/-- Everything external a proof depends on: the field's roots of unity, the transcript, the encoding of
field elements, the mapping of challenges to field elements and the hash functions.
See src/starks/prover.rs:86-105, 532-566. -/
structure Env (F T : Type) [Field F] where
  ta : TwoAdic F
  tr : Transcript T
  toBytes : F → Bytes
  ofDigest : Commitment → F
  hashes : Hashes F
  keccak : Bytes → Commitment

namespace Env
variable {F T : Type} [Field F]

/-- `transcript_to_field` (src/starks/transcript.rs:13-19). -/
def sample (env : Env F T) (t : T) : F × T := env.tr.toField env.ofDigest t

/-- `batch_sample_challenges` (src/starks/transcript.rs:71-79). -/
def samples (env : Env F T) (k : Nat) (t : T) : List F × T := env.tr.batchSample env.ofDigest k t

/-- `transcript.append(&element.to_bytes_be())` for one element (src/starks/prover.rs:673-689). -/
def appendField (env : Env F T) (t : T) (x : F) : T := env.tr.append t (env.toBytes x)

end Env

namespace Fri
noncomputable section
open Polynomial
variable {F T : Type} [Field F] [DecidableEq F]

/-- `fold_polynomial` (src/starks/fri/fri_functions.rs:4-27). -/
def foldPolynomial (p : F[X]) (beta : F) : F[X] :=
  let coef := coefficients p
  polyNew (everySecond coef) + polyNew ((everySecond (coef.drop 1)).map (· * beta))

/-- `FriLayer` (src/starks/fri/fri_commitment.rs:14-23). -/
structure FriLayer (F : Type) where
  evaluation : List F
  merkleTree : Merkle.Tree
  cosetOffset : F
  domainSize : Nat

/-- `FriLayer::new` (src/starks/fri/fri_commitment.rs:30-47). -/
def FriLayer.new (env : Env F T) (poly : F[X]) (cosetOffset : F) (domainSize : Nat) :
    Outcome Empty (FriLayer F) := do
  let evaluation ← evaluateOffsetFft env.ta poly 1 domainSize cosetOffset
  let tree ← Merkle.build env.hashes.leaf env.hashes.node evaluation
  return ⟨evaluation, tree, cosetOffset, domainSize⟩

/-- The loop of `fri_commit_phase` (src/starks/fri/mod.rs:41-56), `k` iterations from a polynomial, a
transcript, a coset offset and a domain size. -/
def commitLoop (env : Env F T) : Nat → F[X] → T → F → Nat → Outcome Empty (F[X] × T × List (FriLayer F))
  | 0, p, t, _, _ => .ok (p, t, [])
  | k + 1, p, t, offset, size => do
    let zeta := env.sample t
    let offset := offset ^ 2
    let size := size / 2
    let p := foldPolynomial p zeta.1
    let layer ← FriLayer.new env p offset size
    let t := env.tr.append zeta.2 layer.merkleTree.root.val
    let r ← commitLoop env k p t offset size
    return (r.1, r.2.1, layer :: r.2.2)

/-- `fri_commit_phase` (src/starks/fri/mod.rs:20-72). Returns the last value, the layers and the
transcript. -/
def commitPhase (env : Env F T) (numberLayers : Nat) (p0 : F[X]) (t : T) (cosetOffset : F)
    (domainSize : Nat) : Outcome Empty (F × List (FriLayer F) × T) := do
  let layer ← FriLayer.new env p0 cosetOffset domainSize
  let t := env.tr.append t layer.merkleTree.root.val
  let r ← commitLoop env (numberLayers - 1) p0 t cosetOffset domainSize
  let zeta := env.sample r.2.1
  let last := foldPolynomial r.1 zeta.1
  let lastValue := (coefficients last).headD 0
  return (lastValue, layer :: r.2.2, env.appendField zeta.2 lastValue)

/-- The answer of one layer to a query (src/starks/fri/mod.rs:99-112): authentication path and value at
the symmetric index, authentication path and value at the index. `% 0` panics. -/
def openLayer (env : Env F T) (iota : Nat) (layer : FriLayer F) :
    Outcome Empty ((MerkleProof × F) × (MerkleProof × F)) :=
  if layer.domainSize = 0 then .panic
  else do
    let idx := iota % layer.domainSize
    let idxSym := (iota + layer.domainSize / 2) % layer.domainSize
    let evaluationSym ← index layer.evaluation idxSym
    let pathSym ← Outcome.ofOptionUnwrap (layer.merkleTree.getProofByPos env.hashes.node idxSym)
    let evaluation ← index layer.evaluation idx
    let path ← Outcome.ofOptionUnwrap (layer.merkleTree.getProofByPos env.hashes.node idx)
    return ((pathSym, evaluationSym), (path, evaluation))

/-- The answer to one query (src/starks/fri/mod.rs:92-121). -/
def answerQuery (env : Env F T) (layers : List (FriLayer F)) (iota : Nat) :
    Outcome Empty (FriDecommitment F) := do
  let opened ← mapOutcome (openLayer env iota) layers
  return { layersAuthPathsSym := opened.map (·.1.1)
           layersEvaluationsSym := opened.map (·.1.2)
           layersAuthPaths := opened.map (·.2.1)
           layersEvaluations := opened.map (·.2.2) }

/-- The query indices (src/starks/fri/mod.rs:87-89). `% 0` panics. -/
def sampleIndices (env : Env F T) (modulus : Nat) : Nat → T → Outcome Empty (List Nat × T)
  | 0, t => .ok ([], t)
  | k + 1, t =>
    if modulus = 0 then .panic
    else do
      let x := env.tr.toUsize t
      let r ← sampleIndices env modulus k x.2
      return (x.1 % modulus :: r.1, r.2)

/-- `fri_query_phase` (src/starks/fri/mod.rs:73-127). -/
def queryPhase (env : Env F T) (numberOfQueries domainSize : Nat) (layers : List (FriLayer F)) (t : T) :
    Outcome Empty (List (FriDecommitment F) × List Nat × T) :=
  if layers.isEmpty then .ok ([], [], t)
  else do
    let iotas ← sampleIndices env domainSize numberOfQueries t
    let queryList ← mapOutcome (answerQuery env layers) iotas.1
    return (queryList, iotas.1, iotas.2)

end
end Fri
end Verif
