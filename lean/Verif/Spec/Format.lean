import Verif.Model.PublicInputs

/-!
# The byte format of proofs, public inputs and proof files

Which byte strings the decoders read as which values, part by part. `beNat` is the number that bytes stand for, most
significant first.
-/

namespace Verif.Spec.Format

/-- The parts one after the other, and nothing else. -/
def Parts : List (Bytes → Prop) → Bytes → Prop
  | [], bs => bs = []
  | P :: Ps, bs => ∃ b rest, bs = b ++ rest ∧ P b ∧ Parts Ps rest

/-- Any bytes; they are not looked at. -/
def Anything : Bytes → Prop := fun _ => True

/-- A number in eight bytes. -/
def Num (n : Nat) : Bytes → Prop := fun bs => bs.length = 8 ∧ beNat bs = n

/-- A field element in `width` bytes: at least 32, of which the first 32 stand for a number that is the element modulo the
prime. -/
def Felt (width : Nat) (x : FE) : Bytes → Prop := fun bs =>
  bs.length = width ∧ 32 ≤ width ∧ ((beNat (bs.take 32) : Nat) : FE) = x

/-- The 32 bytes of a digest. -/
def Digest (c : Commitment) : Bytes → Prop := fun bs => bs = c.val

/-- The number of values, and the values. -/
def Many {α : Type} (format : α → Bytes → Prop) (values : List α) : Bytes → Prop :=
  Parts [Num values.length, Parts (values.map format)]

/-- The number of bytes, and the bytes. -/
def Sized (format : Bytes → Prop) : Bytes → Prop := fun bs =>
  ∃ inner, format inner ∧ Parts [Num inner.length, (· = inner)] bs

/-- A path of a Merkle tree. -/
def Path (p : MerkleProof) : Bytes → Prop := Many Digest p.merklePath

/-- The values at the out-of-domain point. -/
def OodFrame (f : Frame FE) : Bytes → Prop := fun bs => ∃ width n,
  n = f.data.length ∧ Parts [Num n, Num width, Parts (f.data.map (Felt width)), Num f.rowWidth, Anything] bs

/-- The answers to a query of FRI. -/
def Query (d : FriDecommitment FE) : Bytes → Prop := fun bs => ∃ width,
  Parts [Many Path d.layersAuthPathsSym, Num width, Many (Felt width) d.layersEvaluationsSym,
    Many (Felt width) d.layersEvaluations, Many Path d.layersAuthPaths, Anything] bs

/-- The openings of a query. -/
def Opening (o : DeepPolynomialOpenings FE) : Bytes → Prop := fun bs => ∃ width,
  Parts [Path o.ldeCompositionPolyProof, Num width, Felt width o.ldeCompositionPolyEvenEvaluation,
    Felt width o.ldeCompositionPolyOddEvaluation, Many Path o.ldeTraceMerkleProofs,
    Many (Felt width) o.ldeTraceEvaluations, Anything] bs

/-- A proof. -/
def Proof (p : StarkProof FE) : Bytes → Prop := fun bs => ∃ width,
  Parts [Num p.traceLength, Many Digest p.ldeTraceMerkleRoots, Sized (OodFrame p.traceOodFrameEvaluations),
    Digest p.compositionPolyRoot, Num width, Felt width p.compositionPolyEvenOodEvaluation,
    Felt width p.compositionPolyOddOodEvaluation, Many Digest p.friLayersMerkleRoots, Felt width p.friLastValue,
    Many (fun d => Sized (Query d)) p.queryList, Many (fun o => Sized (Opening o)) p.deepPolyOpenings,
    Anything, Num p.nonce] bs

/-- An optional bound of the range check: a zero byte, or a one byte and the bound in two bytes. -/
def Bound (v : Option UInt16) : Bytes → Prop := fun bs =>
  match v with
  | none => bs = [0]
  | some v => ∃ b, b.length = 2 ∧ beNat b = v.toNat ∧ bs = 1 :: b

/-- A memory segment: its kind in a byte, its start and its end. -/
def Segment (e : MemorySegment × (Nat × Nat)) : Bytes → Prop :=
  Parts [(· = [match e.1 with | .rangeCheck => 0 | .output => 1]), Num e.2.1, Num e.2.2]

/-- A cell of the public memory: its address and its value. -/
def Cell (width : Nat) (e : FE × FE) : Bytes → Prop := Parts [Felt width e.1, Felt width e.2]

/-- `map` is the map that results from inserting the entries one after the other; of two entries with the same key the
later one counts. -/
def MapOf {K V : Type} [DecidableEq K] (entries : List (K × V)) (map : HMap K V) : Prop :=
  map = entries.foldl (fun m e => HMap.insert m e.1 e.2) []

/-- The public inputs. -/
def Inputs (pi : PublicInputs) : Bytes → Prop := fun bs => ∃ width segments cells,
  MapOf segments pi.memorySegments ∧ MapOf cells pi.publicMemory ∧
  Parts [Num width, Felt width pi.pcInit, Felt width pi.apInit, Felt width pi.fpInit, Felt width pi.pcFinal,
    Felt width pi.apFinal, Bound pi.rangeCheckMin, Bound pi.rangeCheckMax, Many Segment segments,
    Many (Cell width) cells, Num pi.numSteps, Anything] bs

/-- A proof file: the proof, with its size, and the public inputs. -/
def File (proof : StarkProof FE) (pi : PublicInputs) : Bytes → Prop := Parts [Sized (Proof proof), Inputs pi]

/-- The end of a string inside a bound of the range check: a one byte and at most one byte of the bound. -/
def Cut : Bytes → Prop := fun bs => bs = [1] ∨ ∃ x, bs = [1, x]

/-- Public inputs that end inside a bound of the range check. -/
def CutInputs : Bytes → Prop := fun bs => ∃ width pc ap fp pcFinal apFinal,
  Parts [Num width, Felt width pc, Felt width ap, Felt width fp, Felt width pcFinal, Felt width apFinal, Cut] bs ∨
  ∃ v, Parts [Num width, Felt width pc, Felt width ap, Felt width fp, Felt width pcFinal, Felt width apFinal, Bound v,
    Cut] bs

end Verif.Spec.Format
