import Verif.Model.Bytes

/-! Specification of the binary register-trace and memory formats. -/

namespace Verif.Spec

/-- The `k` bytes starting at position `a`. -/
def window (bs : Bytes) (a k : Nat) : Bytes := (bs.drop a).take k

/-- The last value a list of (address, value) rows gives to an address. -/
def lastValue (rows : List (Nat × FE)) (addr : Nat) : Option FE :=
  (rows.reverse.find? (fun r => r.1 = addr)).map Prod.snd

/-- The rows of a memory dump: an 8-byte address and a 32-byte value, little-endian. -/
def memoryRows (bs : Bytes) : List (Nat × FE) :=
  (List.range (bs.length / 40)).map fun i =>
    (leNat (window bs (40 * i) 8), ((leNat (window bs (40 * i + 8) 32) : Nat) : FE))

end Verif.Spec
