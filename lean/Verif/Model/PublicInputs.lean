import Verif.Model.ProofCodec
import Verif.Model.HMap

/-!
# Cairo public inputs, their encoding, and the proof file of the command line

Models `src/cairo/air.rs:156-448` and the file formats of `src/main.rs:72-161`.
-/

namespace Verif

/-- `MemorySegment` (src/cairo/air.rs:156-160). -/
inductive MemorySegment where
  | rangeCheck
  | output
  deriving DecidableEq, Repr

/-- `MemorySegmentMap = HashMap<MemorySegment, Range<u64>>` (src/cairo/air.rs:162); a range is its
start and its (exclusive) end. -/
abbrev MemorySegmentMap := HMap MemorySegment (Nat × Nat)

/-- `PublicInputs` (src/cairo/air.rs:164-183). -/
structure PublicInputs where
  pcInit : FE
  apInit : FE
  fpInit : FE
  pcFinal : FE
  apFinal : FE
  rangeCheckMin : Option UInt16
  rangeCheckMax : Option UInt16
  memorySegments : MemorySegmentMap
  publicMemory : HMap FE FE
  numSteps : Nat
  deriving DecidableEq

/-- Tag and value of an optional `u16` (src/cairo/air.rs:236-248). -/
def serializeOptU16 : Option UInt16 → Bytes
  | some v => 1 :: beBytes 2 v.toNat
  | none => [0]

/-- One entry of the segment map (src/cairo/air.rs:251-259). -/
def serializeSegment (e : MemorySegment × (Nat × Nat)) : Bytes :=
  (match e.1 with | .rangeCheck => 0 | .output => 1) :: (beBytes 8 e.2.1 ++ beBytes 8 e.2.2)

/-- `PublicInputs::serialize` (src/cairo/air.rs:224-275). The maps are written in iteration order. -/
def PublicInputs.serialize (p : PublicInputs) : Bytes :=
  beBytes 8 (feToBytesBe p.pcInit).length
    ++ feToBytesBe p.pcInit
    ++ feToBytesBe p.apInit
    ++ feToBytesBe p.fpInit
    ++ feToBytesBe p.pcFinal
    ++ feToBytesBe p.apFinal
    ++ serializeOptU16 p.rangeCheckMin
    ++ serializeOptU16 p.rangeCheckMax
    ++ beBytes 8 p.memorySegments.length
    ++ p.memorySegments.flatMap serializeSegment
    ++ beBytes 8 p.publicMemory.length
    ++ p.publicMemory.flatMap (fun e => feToBytesBe e.1 ++ feToBytesBe e.2)
    ++ beBytes 8 p.numSteps

/-- `if bytes.is_empty() { return Err(InvalidAmountOfBytes) }; match bytes[0]`
(src/cairo/air.rs:322-325, 343-346, 372-377): the first byte, without advancing. -/
def peekByte : Parser UInt8 := fun bs =>
  match bs with
  | [] => .err .invalidAmountOfBytes
  | b :: _ => .ok (b, bs)

/-- `bytes[..n]`: panics when the slice is shorter (src/cairo/air.rs:333, 354). -/
def indexPrefix (n : Nat) : Parser Bytes := fun bs =>
  if n ≤ bs.length then .ok (bs.take n, bs) else .panic

/-- An optional `u16` (src/cairo/air.rs:322-341 and 343-362). -/
def parseOptU16 : Parser (Option UInt16) := do
  let b ← peekByte
  if b = 0 then
    advance 1
    return none
  else if b = 1 then
    advance 1
    let v ← indexPrefix 2
    advance 2
    return some (UInt16.ofNat (beNat v))
  else
    StateT.lift (.err .fieldFromBytes)

/-- One iteration of the segment loop (src/cairo/air.rs:373-398). -/
def parseSegment : Parser (MemorySegment × (Nat × Nat)) := do
  let b ← peekByte
  let seg ← StateT.lift
    (if b = 0 then .ok MemorySegment.rangeCheck
     else if b = 1 then .ok MemorySegment.output
     else .err DeserError.fieldFromBytes)
  advance 1
  let start ← readUsize
  let stop ← readUsize
  return (seg, (start, stop))

/-- One iteration of the public-memory loop (src/cairo/air.rs:410-424). -/
def parseCell (feltLen : Nat) : Parser (FE × FE) := do
  let a ← readFelt feltLen
  let v ← readFelt feltLen
  return (a, v)

/-- `for _ in 0..n { ..; map.insert(k, v); }`. See src/cairo/air.rs:374-401, 412-426. -/
def insertAll {K V : Type} [DecidableEq K] (entries : List (K × V)) : HMap K V :=
  entries.foldl (fun m e => m.insert e.1 e.2) []

/-- Body of `PublicInputs::deserialize` (src/cairo/air.rs:279-448). The final read of `num_steps`
does not advance the slice. Reading all entries before inserting them is equivalent to inserting
after each read, as insertion cannot fail. -/
def parsePublicInputs : Parser PublicInputs := do
  let feltLen ← readUsize
  let pcInit ← readFelt feltLen
  let apInit ← readFelt feltLen
  let fpInit ← readFelt feltLen
  let pcFinal ← readFelt feltLen
  let apFinal ← readFelt feltLen
  let rcMin ← parseOptU16
  let rcMax ← parseOptU16
  let nSeg ← readUsize
  let segs ← readMany parseSegment nSeg
  let nMem ← readUsize
  let mem ← readMany (parseCell feltLen) nMem
  let ns ← getPrefix 8
  return {
    pcInit, apInit, fpInit, pcFinal, apFinal
    rangeCheckMin := rcMin
    rangeCheckMax := rcMax
    memorySegments := insertAll segs
    publicMemory := insertAll mem
    numSteps := beNat ns }

/-- `PublicInputs::deserialize` (src/cairo/air.rs:279-448). -/
def PublicInputs.deserialize : Bytes → Outcome DeserError PublicInputs := parsePublicInputs.run'

/-! ## The proof file of the command line -/

/-- Contents of the file written by `prove` (src/main.rs:94-98). -/
def writeProofFile (proof : StarkProof FE) (inputs : PublicInputs) : Outcome Empty Bytes := do
  let pb ← proof.serialize
  return beBytes 8 pb.length ++ pb ++ inputs.serialize

/-- What `verify` reads from a file (src/main.rs:119-143): `err ()` stands for printing
"Error reading proof from file" and returning. The slices `bytes[0..8]`, `&bytes[8..]`,
`&bytes[0..proof_len]`, `&bytes[proof_len..]` are guarded by the preceding length tests. -/
def readProofFile (bs : Bytes) : Outcome Unit (StarkProof FE × PublicInputs) :=
  if bs.length < 8 then .err ()
  else
    let proofLen := beNat (bs.take 8)
    let bs := bs.drop 8
    if bs.length < proofLen then .err ()
    else
      match StarkProof.deserialize (bs.take proofLen) with
      | .panic => .panic
      | .err _ => .err ()
      | .ok proof =>
        match PublicInputs.deserialize (bs.drop proofLen) with
        | .panic => .panic
        | .err _ => .err ()
        | .ok inputs => .ok (proof, inputs)

end Verif
