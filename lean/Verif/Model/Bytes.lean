import Verif.Model.Outcome
import Verif.Model.Field

/-!
# Byte strings, integers and field elements as bytes
-/

namespace Verif

/-- `Vec<u8>` and `&[u8]`, as in src/starks/utils.rs:6, 15. -/
abbrev Bytes := List UInt8

/-- `usize::to_be_bytes` / `u64::to_be_bytes` (k = 8), `u16::to_be_bytes` (k = 2): the low `k` bytes,
most significant first (Rust core). Used at src/starks/utils.rs:8. -/
def beBytes : Nat → Nat → Bytes
  | 0, _ => []
  | k + 1, n => beBytes k (n / 256) ++ [UInt8.ofNat n]

/-- `usize::from_be_bytes` and friends (Rust core). Used at src/starks/utils.rs:18. -/
def beNat (bs : Bytes) : Nat := bs.foldl (fun acc b => acc * 256 + b.toNat) 0

/-- `u64::to_le_bytes` (k = 8) (Rust core). Used at src/starks/grinding.rs:23. -/
def leBytes : Nat → Nat → Bytes
  | 0, _ => []
  | k + 1, n => UInt8.ofNat n :: leBytes k (n / 256)

/-- `u64::from_le_bytes` (Rust core). Used at src/cairo/cairo_mem.rs:49. -/
def leNat : Bytes → Nat
  | [] => 0
  | b :: bs => b.toNat + 256 * leNat bs

/-- `FieldElement::to_bytes_be` (external, lambdaworks-math `ByteConversion`): 32 bytes of the
canonical representative, most significant first. Used at src/starks/prover.rs:670. -/
def feToBytesBe (x : FE) : Bytes := beBytes 32 x.val

/-- `FieldElement::from_bytes_be` (external): fails below 32 bytes, uses the first 32 bytes,
reduces modulo the prime. Used at src/starks/fri/fri_decommit.rs:94. -/
def feFromBytesBe (bs : Bytes) : Option FE :=
  if bs.length < 32 then none else some ((beNat (bs.take 32) : Nat) : FE)

/-- `FieldElement::from_bytes_le` (external): fails below 32 bytes, uses the first 32 bytes,
reduces modulo the prime. Used at src/cairo/cairo_mem.rs:50. -/
def feFromBytesLe (bs : Bytes) : Option FE :=
  if bs.length < 32 then none else some ((leNat (bs.take 32) : Nat) : FE)

/-- `FieldElement::to_bytes_le` (external): 32 bytes of the canonical representative, least
significant first. Used at src/cairo/runner/vec_writer.rs:53. -/
def feToBytesLe (x : FE) : Bytes := leBytes 32 x.val

/-! ## Slices being consumed

The decoders keep a slice `bytes` and repeatedly run
`bytes.get(..n).ok_or(InvalidAmountOfBytes)?` followed by `bytes = &bytes[n..]`. -/

/-- `DeserializationError` (external, lambdaworks-math `errors.rs`).
Used at src/starks/utils.rs:21. -/
inductive DeserError where
  | invalidAmountOfBytes
  | fieldFromBytes
  | invalidValue
  deriving DecidableEq, Repr

/-- A decoder: consumes a prefix of the slice, may fail, may panic. See src/starks/utils.rs:15. -/
abbrev Parser := StateT Bytes (Outcome DeserError)

/-- `bytes.get(..n).ok_or(DeserializationError::InvalidAmountOfBytes)?`
(e.g. src/starks/frame.rs:120-123). -/
def getPrefix (n : Nat) : Parser Bytes := fun bs =>
  if n ≤ bs.length then .ok (bs.take n, bs) else .err .invalidAmountOfBytes

/-- `bytes = &bytes[n..]`, which panics when `n > bytes.len()` (e.g. src/starks/frame.rs:125). -/
def advance (n : Nat) : Parser Unit := fun bs =>
  if n ≤ bs.length then .ok ((), bs.drop n) else .panic

/-- `usize::from_be_bytes(bytes.get(..8).ok_or(..)?.try_into().map_err(..)?); bytes = &bytes[8..]`
(e.g. src/starks/frame.rs:118-125). The conversion of an 8-byte slice to `[u8; 8]` cannot fail. -/
def readUsize : Parser Nat := do
  let b ← getPrefix 8
  advance 8
  return beNat b

/-- `FieldElement::from_bytes_be(bytes.get(..felt_len).ok_or(..)?)?; bytes = &bytes[felt_len..]`
(e.g. src/starks/frame.rs:138-144). -/
def readFelt (feltLen : Nat) : Parser FE := do
  let b ← getPrefix feltLen
  let x ← StateT.lift (Outcome.okOr (feFromBytesBe b) .fieldFromBytes)
  advance feltLen
  return x

/-- `for _ in 0..n { .. push(..) }` around a reader. See src/starks/utils.rs:27-35. -/
def readMany {α : Type} (p : Parser α) : Nat → Parser (List α)
  | 0 => pure []
  | n + 1 => do
    let a ← p
    let as ← readMany p n
    return a :: as

/-- A commitment: `[u8; 32]` (src/starks/config.rs:18). -/
abbrev Commitment := { l : Bytes // l.length = 32 }

/-- `let c = bytes.get(..32).ok_or(..)?.try_into().map_err(..)?; bytes = &bytes[32..]`
(e.g. src/starks/utils.rs:28-34). -/
def readCommitment : Parser Commitment := do
  let b ← getPrefix 32
  let c ← StateT.lift (if h : b.length = 32 then Outcome.ok ⟨b, h⟩ else .err .invalidAmountOfBytes)
  advance 32
  return c

end Verif
