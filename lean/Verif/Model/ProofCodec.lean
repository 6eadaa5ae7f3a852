import Verif.Model.Bytes

/-!
# Proof data and its byte encoding

Models `src/starks/frame.rs` (structure and codec), `src/starks/utils.rs`,
`src/starks/fri/fri_decommit.rs` and `src/starks/proof/stark.rs`.

Simplification: `usize` is 64 bits wide (the decoders read 8 bytes).
-/

namespace Verif

/-- `lambdaworks_crypto::merkle_tree::proof::Proof<Commitment>` (external): the sibling hashes.
Used at src/starks/utils.rs:6, 15. -/
structure MerkleProof where
  merklePath : List Commitment
  deriving DecidableEq

/-- `Frame<F>` (src/starks/frame.rs:11-15). -/
structure Frame (F : Type) where
  data : List F
  rowWidth : Nat
  deriving DecidableEq

/-- `FriDecommitment<F>` (src/starks/fri/fri_decommit.rs:12-17). -/
structure FriDecommitment (F : Type) where
  layersAuthPathsSym : List MerkleProof
  layersEvaluationsSym : List F
  layersAuthPaths : List MerkleProof
  layersEvaluations : List F
  deriving DecidableEq

/-- `DeepPolynomialOpenings<F>` (src/starks/proof/stark.rs:17-24). -/
structure DeepPolynomialOpenings (F : Type) where
  ldeCompositionPolyProof : MerkleProof
  ldeCompositionPolyEvenEvaluation : F
  ldeCompositionPolyOddEvaluation : F
  ldeTraceMerkleProofs : List MerkleProof
  ldeTraceEvaluations : List F
  deriving DecidableEq

/-- `StarkProof<F>` (src/starks/proof/stark.rs:26-51). -/
structure StarkProof (F : Type) where
  traceLength : Nat
  ldeTraceMerkleRoots : List Commitment
  traceOodFrameEvaluations : Frame F
  compositionPolyRoot : Commitment
  compositionPolyEvenOodEvaluation : F
  compositionPolyOddOodEvaluation : F
  friLayersMerkleRoots : List Commitment
  friLastValue : F
  queryList : List (FriDecommitment F)
  deepPolyOpenings : List (DeepPolynomialOpenings F)
  nonce : Nat
  deriving DecidableEq

/-! ## Encoders -/

/-- `serialize_proof` (src/starks/utils.rs:6-13). -/
def serializeMerkleProof (p : MerkleProof) : Bytes :=
  beBytes 8 p.merklePath.length ++ p.merklePath.flatMap (·.val)

/-- `Frame::serialize` (src/starks/frame.rs:91-105). -/
def Frame.serialize (f : Frame FE) : Bytes :=
  beBytes 8 f.data.length
    ++ beBytes 8 (match f.data with | [] => 0 | x :: _ => (feToBytesBe x).length)
    ++ f.data.flatMap feToBytesBe
    ++ beBytes 8 f.rowWidth

/-- `FriDecommitment::serialize` (src/starks/fri/fri_decommit.rs:24-45).
`self.layers_evaluations[0]` (line 30) panics when there are no evaluations. -/
def FriDecommitment.serialize (d : FriDecommitment FE) : Outcome Empty Bytes :=
  match d.layersEvaluations with
  | [] => .panic
  | e0 :: _ =>
    .ok (beBytes 8 d.layersAuthPathsSym.length
      ++ d.layersAuthPathsSym.flatMap serializeMerkleProof
      ++ beBytes 8 (feToBytesBe e0).length
      ++ beBytes 8 d.layersEvaluationsSym.length
      ++ d.layersEvaluationsSym.flatMap feToBytesBe
      ++ beBytes 8 d.layersEvaluations.length
      ++ d.layersEvaluations.flatMap feToBytesBe
      ++ beBytes 8 d.layersAuthPaths.length
      ++ d.layersAuthPaths.flatMap serializeMerkleProof)

/-- `DeepPolynomialOpenings::serialize` (src/starks/proof/stark.rs:58-76). -/
def DeepPolynomialOpenings.serialize (o : DeepPolynomialOpenings FE) : Bytes :=
  serializeMerkleProof o.ldeCompositionPolyProof
    ++ beBytes 8 (feToBytesBe o.ldeCompositionPolyEvenEvaluation).length
    ++ feToBytesBe o.ldeCompositionPolyEvenEvaluation
    ++ feToBytesBe o.ldeCompositionPolyOddEvaluation
    ++ beBytes 8 o.ldeTraceMerkleProofs.length
    ++ o.ldeTraceMerkleProofs.flatMap serializeMerkleProof
    ++ beBytes 8 o.ldeTraceEvaluations.length
    ++ o.ldeTraceEvaluations.flatMap feToBytesBe

/-- The loop over `query_list` in `StarkProof::serialize` (src/starks/proof/stark.rs:198-203). -/
def serializeQueries : List (FriDecommitment FE) → Outcome Empty Bytes
  | [] => .ok []
  | q :: qs => do
    let b ← q.serialize
    let rest ← serializeQueries qs
    return beBytes 8 b.length ++ b ++ rest

/-- `StarkProof::serialize` (src/starks/proof/stark.rs:166-217). -/
def StarkProof.serialize (p : StarkProof FE) : Outcome Empty Bytes := do
  let frameBytes := p.traceOodFrameEvaluations.serialize
  let queries ← serializeQueries p.queryList
  return beBytes 8 p.traceLength
    ++ beBytes 8 p.ldeTraceMerkleRoots.length
    ++ p.ldeTraceMerkleRoots.flatMap (·.val)
    ++ beBytes 8 frameBytes.length
    ++ frameBytes
    ++ p.compositionPolyRoot.val
    ++ beBytes 8 (feToBytesBe p.compositionPolyEvenOodEvaluation).length
    ++ feToBytesBe p.compositionPolyEvenOodEvaluation
    ++ feToBytesBe p.compositionPolyOddOodEvaluation
    ++ beBytes 8 p.friLayersMerkleRoots.length
    ++ p.friLayersMerkleRoots.flatMap (·.val)
    ++ feToBytesBe p.friLastValue
    ++ beBytes 8 p.queryList.length
    ++ queries
    ++ beBytes 8 p.deepPolyOpenings.length
    ++ p.deepPolyOpenings.flatMap (fun o => beBytes 8 o.serialize.length ++ o.serialize)
    ++ beBytes 8 p.nonce

/-! ## Decoders -/

/-- Run a decoder on a slice and drop what it leaves: a `deserialize(bytes: &[u8])` function.
See src/starks/proof/stark.rs:84, 225. -/
def Parser.run' {α : Type} (p : Parser α) (bs : Bytes) : Outcome DeserError α := do
  let r ← p bs
  return r.1

/-- `deserialize_proof` (src/starks/utils.rs:15-38); returns the rest of the slice. -/
def parseMerkleProof : Parser MerkleProof := do
  let n ← readUsize
  let path ← readMany readCommitment n
  return ⟨path⟩

/-- Body of `Frame::deserialize` (src/starks/frame.rs:113-156). The final read of `row_width` does
not advance the slice in the code; nothing reads it afterwards. -/
def parseFrame : Parser (Frame FE) := do
  let dataLen ← readUsize
  let feltLen ← readUsize
  let data ← readMany (readFelt feltLen) dataLen
  let rw ← getPrefix 8
  return ⟨data, beNat rw⟩

/-- `Frame::deserialize` (src/starks/frame.rs:113-156). -/
def Frame.deserialize : Bytes → Outcome DeserError (Frame FE) := parseFrame.run'

/-- Body of `FriDecommitment::deserialize` (src/starks/fri/fri_decommit.rs:53-145). -/
def parseFriDecommitment : Parser (FriDecommitment FE) := do
  let nSym ← readUsize
  let sym ← readMany parseMerkleProof nSym
  let feltLen ← readUsize
  let nEvSym ← readUsize
  let evSym ← readMany (readFelt feltLen) nEvSym
  let nEv ← readUsize
  let ev ← readMany (readFelt feltLen) nEv
  let nAuth ← readUsize
  let auth ← readMany parseMerkleProof nAuth
  return ⟨sym, evSym, auth, ev⟩

/-- `FriDecommitment::deserialize` (src/starks/fri/fri_decommit.rs:53-145). -/
def FriDecommitment.deserialize : Bytes → Outcome DeserError (FriDecommitment FE) :=
  parseFriDecommitment.run'

/-- Body of `DeepPolynomialOpenings::deserialize` (src/starks/proof/stark.rs:84-158). -/
def parseDeepOpenings : Parser (DeepPolynomialOpenings FE) := do
  let proof ← parseMerkleProof
  let feltLen ← readUsize
  let even ← readFelt feltLen
  let odd ← readFelt feltLen
  let nProofs ← readUsize
  let proofs ← readMany parseMerkleProof nProofs
  let nEvs ← readUsize
  let evs ← readMany (readFelt feltLen) nEvs
  return ⟨proof, even, odd, proofs, evs⟩

/-- `DeepPolynomialOpenings::deserialize` (src/starks/proof/stark.rs:84-158). -/
def DeepPolynomialOpenings.deserialize :
    Bytes → Outcome DeserError (DeepPolynomialOpenings FE) :=
  parseDeepOpenings.run'

/-- A length-prefixed sub-slice handed to another decoder:
`let n = usize..; bytes = &bytes[8..]; T::deserialize(bytes.get(..n).ok_or(..)?)?; bytes = &bytes[n..]`
(src/starks/proof/stark.rs:262-279, 357-375, 389-407). -/
def readSized {α : Type} (de : Bytes → Outcome DeserError α) : Parser α := do
  let n ← readUsize
  let b ← getPrefix n
  let a ← StateT.lift (de b)
  advance n
  return a

/-- The nonce: `bytes.len().checked_sub(8).ok_or(..)?`, then the last 8 bytes
(src/starks/proof/stark.rs:410-422). -/
def readNonce : Parser Nat := fun bs =>
  if bs.length < 8 then .err .invalidAmountOfBytes
  else .ok (beNat (bs.drop (bs.length - 8)), bs)

/-- Body of `StarkProof::deserialize` (src/starks/proof/stark.rs:225-437). -/
def parseStarkProof : Parser (StarkProof FE) := do
  let traceLength ← readUsize
  let nRoots ← readUsize
  let roots ← readMany readCommitment nRoots
  let frame ← readSized Frame.deserialize
  let compRoot ← readCommitment
  let feltLen ← readUsize
  let even ← readFelt feltLen
  let odd ← readFelt feltLen
  let nFri ← readUsize
  let friRoots ← readMany readCommitment nFri
  let friLast ← readFelt feltLen
  let nQueries ← readUsize
  let queries ← readMany (readSized FriDecommitment.deserialize) nQueries
  let nOpenings ← readUsize
  let openings ← readMany (readSized DeepPolynomialOpenings.deserialize) nOpenings
  let nonce ← readNonce
  return ⟨traceLength, roots, frame, compRoot, even, odd, friRoots, friLast, queries, openings, nonce⟩

/-- `StarkProof::deserialize` (src/starks/proof/stark.rs:225-437). -/
def StarkProof.deserialize : Bytes → Outcome DeserError (StarkProof FE) := parseStarkProof.run'

end Verif
