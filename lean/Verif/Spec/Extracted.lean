import Verif.Spec.Ordered
import Verif.Spec.Heard
import Verif.Spec.Extract
import Verif.Spec.Shape

/-!
# The game in which all the prover sends are roots and values

The hash of the Merkle trees and the digests after the messages are drawn at random, as one function that answers both kinds
of questions. The words that the roots stand for are read off the questions.
-/

namespace Verif.Spec
variable {T Ch : Type}

/-- A message: a root (none for an auxiliary trace if there is none), the claims about the out-of-domain point with a frame
of `k` values, or the last value of FRI with the nonce. -/
inductive Said (k : Nat)
  | root (r : Option Commitment)
  | claims (even odd : FE) (frame : Fin k → FE)
  | last (value : FE) (nonce : Fin (2 ^ 64))

/-- The parts of a message. -/
def Said.parts {k : Nat} : Said k → Option Commitment ⊕ (FE × FE × (Fin k → FE)) ⊕ (FE × Fin (2 ^ 64))
  | .root r => .inl r
  | .claims even odd frame => .inr (.inl (even, odd, frame))
  | .last value nonce => .inr (.inr (value, nonce))

noncomputable instance {k : Nat} : Fintype (Said k) :=
  Fintype.ofInjective Said.parts fun x y h => by cases x <;> cases y <;> simp_all [Said.parts]

noncomputable instance {k : Nat} : DecidableEq (Said k) := Classical.decEq _

/-- The messages in a proof, one after the other. -/
def saidBy (k : Nat) (p : StarkProof FE) : List (Said k) :=
  [.root p.ldeTraceMerkleRoots[0]?, .root p.ldeTraceMerkleRoots[1]?, .root (some p.compositionPolyRoot),
    .claims p.compositionPolyEvenOodEvaluation p.compositionPolyOddOodEvaluation
      fun i => p.traceOodFrameEvaluations.data.getD i 0]
    ++ p.friLayersMerkleRoots.map (fun r => .root (some r)) ++ [.last p.friLastValue (Fin.ofNat _ p.nonce)]

/-- A message as the transcript gets it. -/
def sentAs {k : Nat} (toBytes : FE → Bytes) : Said k → Sent
  | .root r => (r.toList.map (·.val), 0)
  | .claims even odd frame => ((even :: odd :: List.ofFn frame).map toBytes, 0)
  | .last value nonce => ([toBytes value], nonce.val)

/-- The root that a message names. -/
def Said.named {k : Nat} : Said k → Option Commitment
  | .root r => r
  | _ => none

/-- The last of the messages so far. -/
def latest {k n : Nat} (l : Told (Said k) n) : Said k := l.val.getLastD (.root none)

/-! ### What the verifier does -/

/-- The verifier accepts the proof `p`, whose messages are `l`, with the challenges `c` derived from the digests that `H`
gives for the messages: the proof of work is right and the checks of the code succeed (src/starks/verifier.rs:542-655). -/
structure Accepts (env : Env FE T) (air : Air FE Ch) (d : Domain FE) (a b : Nat) {nb nt k q r : Nat}
    (H : Told (Said k) (a + 5) → Reply air.numRapChallenges nb nt k q r) (p : StarkProof FE) (l : Told (Said k) (a + 5))
    (c : Challenges FE Ch) : Prop where
  said : l.val = saidBy k p
  work : air.context.proofOptions.grindingFactor.toNat ≤ 64 ∧
    2 ^ air.context.proofOptions.grindingFactor.toNat ∣ beNat ((H l).work.val.take 8)
  drawn : ∃ ε αB βB αT βT z γe γo γ ζ ι,
    derived (d.ldeRootsOfUnityCoset ++ d.traceRootsOfUnity) (a + b) (digestsFor H l)
      = some (ε, αB, βB, αT, βT, z, γe, γo, γ, ζ, ι) ∧
    c = { challengesOf (air.rapChallenges (List.ofFn ε)) (List.ofFn αB) (List.ofFn βB) (List.ofFn αT) (List.ofFn βT) z
            γe γo (coeffRows air.context.transitionOffsets.length air.context.traceColumns (List.ofFn γ)) with
          zetas := List.ofFn ζ, iotas := List.ofFn fun i => (ι i).val, leadingZerosCount := c.leadingZerosCount }
  claims : step2 air p d c = .ok true
  fri : step3 env p d c = .ok true
  deep : step4 env air p d c = .ok true

/-- Something that a proof opens to answer a query: a row of the main trace, a row of the auxiliary trace, or one of the
openings that the verifier checks. -/
inductive Spot
  | main (query : Nat)
  | aux (query : Nat)
  | checked (place : Place)

/-- The query that the opening answers. -/
def Spot.query : Spot → Nat
  | main i => i
  | aux i => i
  | checked place => place.query

/-- What a proof opens there, with `c0` columns in the main trace: a path and values. -/
def Spot.opening (p : StarkProof FE) (c0 : Nat) : Spot → Option (MerkleProof × List FE)
  | main i => do
    let o ← p.deepPolyOpenings[i]?
    let path ← o.ldeTraceMerkleProofs[0]?
    return (path, o.ldeTraceEvaluations.take c0)
  | aux i => do
    let o ← p.deepPolyOpenings[i]?
    let path ← o.ldeTraceMerkleProofs[1]?
    return (path, o.ldeTraceEvaluations.drop c0)
  | checked place => place.opening p

/-- The root of the tree that the opening is in. -/
def Spot.root (p : StarkProof FE) : Spot → Option Commitment
  | main _ => p.ldeTraceMerkleRoots[0]?
  | aux _ => p.ldeTraceMerkleRoots[1]?
  | checked place => rootAt p place

/-- The index at which the opening is in its tree, in the setting of a domain of `2^n` points. -/
def Spot.index (n iota : Nat) : Spot → Nat
  | checked place => indexOf n iota place
  | _ => iota

/-- The check that the verifier of the code leaves out (`C48_trace_paths_ignored`): the rows of the trace are opened
rightly. -/
def TraceOpened (hashes : Hashes FE) (c0 : Nat) (p : StarkProof FE) (iotas : List Nat) : Prop :=
  ∀ (i iota : Nat) (path : MerkleProof) (values : List FE) (root : Commitment), iotas[i]? = some iota →
    ∀ spot : Spot, spot = .main i ∨ spot = .aux i → spot.opening p c0 = some (path, values) → spot.root p = some root →
      Merkle.verify hashes.leafBatch hashes.node path root iota values = true

/-! ### What the prover means -/

/-- The messages so far, with what had been hashed when they were sent. -/
abbrev Meant (k n : Nat) : Type := List (Bytes × Commitment) × Told (Said k) n

instance {k n : Nat} : Inhabited (Meant k n) := ⟨([], ⟨[], Nat.zero_le n⟩)⟩

open Classical in
/-- The row of `c` values at the index `s` of the tree of height `h` whose root the latest message names, as far as it can be
told from what had been hashed. -/
noncomputable def rowBehind (toBytes : FE → Bytes) {k n : Nat} (x : Meant k n) (h c s : Nat) : List FE :=
  if row : ∃ v : List FE, v.length = c ∧ ((latest x.2).named.bind fun root => leafBehind x.1 h root s)
      = some (v.flatMap toBytes) then row.choose else []

/-- What the messages stand for: the words that were hashed when their roots were sent, in the setting of `c0` main columns
and `c1` auxiliary ones and frames with rows of `width` values. -/
noncomputable def extracted (toBytes : FE → Bytes) (a b c0 c1 width : Nat) {k : Nat} : Reading (Meant k (a + 5)) where
  main x := List.ofFn fun (j : Fin c0) s => (rowBehind toBytes x (a + b) c0 s).getD j 0
  aux x := List.ofFn fun (j : Fin c1) s => (rowBehind toBytes x (a + b) c1 s).getD j 0
  halves x := (fun s => (rowBehind toBytes x (a + b) 2 s).getD 0 0, fun s => (rowBehind toBytes x (a + b) 2 s).getD 1 0)
  claims x :=
    let (even, odd, frame) := match latest x.2 with
      | .claims even odd frame => (even, odd, List.ofFn frame)
      | _ => (0, 0, [])
    { traceLength := 0, ldeTraceMerkleRoots := [], traceOodFrameEvaluations := ⟨frame, width⟩,
      compositionPolyRoot := ⟨List.replicate 32 0, List.length_replicate⟩, compositionPolyEvenOodEvaluation := even,
      compositionPolyOddOodEvaluation := odd, friLayersMerkleRoots := [], friLastValue := 0, queryList := [],
      deepPolyOpenings := [], nonce := 0 }
  layer x s := (rowBehind toBytes x (a + b - (x.2.val.length - 5)) 1 s).getD 0 0
  last x := match latest x.2 with
    | .last value _ => value
    | _ => 0

/-! ### The random function -/

/-- A question: for the hash of a message of at most `L` bytes, or for the digests after the messages so far. -/
abbrev Question (L k n : Nat) : Type := Message L ⊕ Told (Said k) n

variable {L k n : Nat} {D : Type}

/-- The message whose hash is asked for. -/
def Question.text : Question L k n → Option Bytes
  | .inl m => some m.val
  | .inr _ => none

/-- The hash function of the Merkle trees. -/
def hashOf {R : Type} (keccak : Bytes → Commitment) (O : Question L k n → Commitment × R) : Bytes → Commitment :=
  drawnHash keccak fun m => (O (.inl m)).1

/-- The digests after the messages. -/
def digestsOf {R : Type} (O : Question L k n → Commitment × R) : Told (Said k) n → R := fun l => (O (.inr l)).2

/-- Among the first `N` questions are all the hashes with which the openings of the proof are checked. -/
def HashesAsked {R : Type} (keccak : Bytes → Commitment) (toBytes : FE → Bytes) (O : Question L k n → Commitment × R)
    (ask : List (Commitment × R) → Question L k n) (N : Nat) (p : StarkProof FE) (c0 height : Nat) (iotas : List Nat) :
    Prop :=
  ∀ (spot : Spot) (iota : Nat) (path : MerkleProof) (values : List FE), iotas[spot.query]? = some iota →
    spot.opening p c0 = some (path, values) →
    ∀ m ∈ messagesOf (hashOf keccak O) (values.flatMap toBytes) path.merklePath (spot.index height iota),
      ∃ i < N, (ask (answers O ask i)).text = some m

/-- `t` is when someone who asks `N` questions first asks for the digests after messages that begin like `l`, or `N` if
that does not happen. -/
structure FirstNamed {R : Type} (O : Question L k n → Commitment × R) (ask : List (Commitment × R) → Question L k n) (N : Nat)
    (l : Told (Said k) n) (t : Nat) : Prop where
  le : t ≤ N
  before : ∀ i < t, ∀ y, ask (answers O ask i) = .inr y → y.first 1 ≠ l.first 1
  named : t = N ∨ ∃ y, ask (answers O ask t) = .inr y ∧ y.first 1 = l.first 1

/-- The questions that a prover with `N` questions and the verifier ask together, at most: the digests after every message
where the prover asks for them after the last only, and then those of the proof and the hashes on the paths of its `q`
queries, also those in the trees of the trace. -/
def questionsAsked (a b q N : Nat) : Nat := (N + 1) * (a + 5) + q * ((2 * a + 3) * (a + b + 1))

end Verif.Spec
