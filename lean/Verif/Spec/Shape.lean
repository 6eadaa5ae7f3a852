import Verif.Model.ProofCodec

/-!
# The size of a proof

What a proof of a trace of `2^a` rows with blowup `2^b` contains, and how many bytes its encoding takes.
-/

namespace Verif.Spec

/-- The numbers of elements in a proof: `2^a` rows, blowup `2^b`, `cols` columns in `trees` committed
traces, frames of `offsets` rows, `queries` queries. -/
structure ProofShape {F : Type} (p : StarkProof F) (a b cols trees offsets queries : Nat) : Prop where
  traceLength : p.traceLength = 2 ^ a
  traceRoots : p.ldeTraceMerkleRoots.length = trees
  frameWidth : p.traceOodFrameEvaluations.rowWidth = cols
  frameData : p.traceOodFrameEvaluations.data.length = offsets * cols
  /-- one layer per halving of the degree -/
  friLayers : p.friLayersMerkleRoots.length = a
  queryCount : p.queryList.length = queries
  openingCount : p.deepPolyOpenings.length = queries
  /-- every query is answered in every layer by two values with a path each, which is one node shorter in
  each layer -/
  query : ∀ q ∈ p.queryList, q.layersEvaluations.length = a ∧ q.layersEvaluationsSym.length = a ∧
    q.layersAuthPaths.map (·.merklePath.length) = (List.range a).map (fun k => a + b - k) ∧
    q.layersAuthPathsSym.map (·.merklePath.length) = (List.range a).map (fun k => a + b - k)
  /-- every opening has a path in the composition tree and in each trace tree -/
  opening : ∀ o ∈ p.deepPolyOpenings, o.ldeCompositionPolyProof.merklePath.length = a + b ∧
    o.ldeTraceMerkleProofs.length = trees ∧
    (∀ m ∈ o.ldeTraceMerkleProofs, m.merklePath.length = a + b) ∧ o.ldeTraceEvaluations.length = cols

/-- Bytes of an encoded Merkle path with `n` nodes. -/
def pathBytes (n : Nat) : Nat := 8 + 32 * n

/-- Bytes of the answer to a query, with its length. -/
def queryBytes (a b : Nat) : Nat :=
  8 + (40 + 64 * a + 2 * ((List.range a).map fun k => pathBytes (a + b - k)).sum)

/-- Bytes of an opening, with its length. -/
def openingBytes (a b cols trees : Nat) : Nat :=
  8 + (88 + 32 * cols + (trees + 1) * pathBytes (a + b))

/-- Bytes of a proof: lengths, roots and single values, the frame, the queries and the openings. -/
def proofBytes (a b cols trees offsets queries : Nat) : Nat :=
  216 + 32 * trees + 32 * (offsets * cols) + 32 * a
    + queries * queryBytes a b + queries * openingBytes a b cols trees

end Verif.Spec
