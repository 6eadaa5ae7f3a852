import Verif.Model.Air

/-!
# Proof options

Models `src/starks/proof/options.rs`. `F::field_bit_size()` (lambdaworks, external) is the parameter
`fieldBits`.
-/

namespace Verif

/-- `uN::trailing_zeros` (Rust core) of a number of `bits` bits: `bits` for zero.
Used at src/starks/proof/options.rs:86. -/
def trailingZeros (bits n : Nat) : Nat := ((List.range bits).find? (fun i => n.testBit i)).getD bits

/-- `uN::leading_zeros` (Rust core) of a number of `bits` bits: `bits` for zero.
Used at src/starks/proof/options.rs:114. -/
def leadingZeros (bits n : Nat) : Nat :=
  ((List.range bits).find? (fun i => n.testBit (bits - 1 - i))).getD bits

/-- How integer overflow behaves (Rust core): debug builds panic, release builds wrap around.
See src/starks/proof/options.rs:89. -/
inductive BuildMode where
  | debug
  | release
  deriving DecidableEq, Repr

/-- `a + b * c - d` on `usize` values, evaluated as in Rust (multiplication, addition, subtraction):
an overflow panics in debug builds and wraps modulo `2^64` in release builds (Rust core).
Used at src/starks/proof/options.rs:89. -/
def usizeMulAddSub {ε : Type} (mode : BuildMode) (a b c d : Nat) : Outcome ε Nat :=
  match mode with
  | .debug => if b * c < 2^64 ∧ a + b * c < 2^64 ∧ d ≤ a + b * c then .ok (a + b * c - d) else .panic
  | .release => .ok ((a + b * c + (2^64 - d)) % 2^64)

/-- `a + b * c / d` on `usize` values (Rust core), see `usizeMulAddSub`.
Used at src/starks/proof/options.rs:117. -/
def usizeMulDivAdd {ε : Type} (mode : BuildMode) (a b c d : Nat) : Outcome ε Nat :=
  match mode with
  | .debug => if b * c < 2^64 ∧ a + b * c / d < 2^64 then .ok (a + b * c / d) else .panic
  | .release => .ok ((a + (b * c % 2^64) / d) % 2^64)

/-- `InsecureOptionError` (src/starks/proof/errors.rs). -/
inductive InsecureOptionError where
  | fieldSize
  | securityBits
  deriving DecidableEq, Repr

/-- `SecurityLevel` (src/starks/proof/options.rs:5-12). -/
inductive SecurityLevel where
  | conjecturable80Bits
  | conjecturable100Bits
  | conjecturable128Bits
  | provable80Bits
  | provable100Bits
  | provable128Bits
  deriving DecidableEq, Repr

namespace ProofOptions

/-- `EXTENSION_DEGREE` (src/starks/proof/options.rs:30). -/
def EXTENSION_DEGREE : Nat := 1
/-- `NUM_BITS_MAX_DOMAIN_SIZE` (src/starks/proof/options.rs:32). -/
def NUM_BITS_MAX_DOMAIN_SIZE : Nat := 40

/-- `ProofOptions::new_secure` (src/starks/proof/options.rs:34-74). -/
def newSecure (level : SecurityLevel) (cosetOffset : Nat) : ProofOptions :=
  match level with
  | .conjecturable80Bits => ⟨4, 31, cosetOffset, 20⟩
  | .conjecturable100Bits => ⟨4, 41, cosetOffset, 20⟩
  | .conjecturable128Bits => ⟨4, 55, cosetOffset, 20⟩
  | .provable80Bits => ⟨4, 80, cosetOffset, 20⟩
  | .provable100Bits => ⟨4, 104, cosetOffset, 20⟩
  | .provable128Bits => ⟨4, 140, cosetOffset, 20⟩

/-- `check_field_security` (src/starks/proof/options.rs:130-140). -/
def checkFieldSecurity (fieldBits : Nat) (target : UInt8) : Outcome InsecureOptionError Unit :=
  if fieldBits * EXTENSION_DEGREE ≤ target.toNat + NUM_BITS_MAX_DOMAIN_SIZE then .err .fieldSize
  else .ok ()

/-- `new_with_checked_security` (src/starks/proof/options.rs:77-100). -/
def newWithCheckedSecurity (mode : BuildMode) (fieldBits : Nat) (blowupFactor : UInt8)
    (friNumberOfQueries cosetOffset : Nat) (grindingFactor target : UInt8) :
    Outcome InsecureOptionError ProofOptions := do
  checkFieldSecurity fieldBits target
  let numBits := trailingZeros 8 blowupFactor.toNat
  let bound ← usizeMulAddSub mode grindingFactor.toNat numBits friNumberOfQueries 1
  if target.toNat ≥ bound then .err .securityBits
  else return ⟨blowupFactor, friNumberOfQueries, cosetOffset, grindingFactor⟩

/-- `new_with_checked_provable_security` (src/starks/proof/options.rs:105-128). -/
def newWithCheckedProvableSecurity (mode : BuildMode) (fieldBits : Nat) (blowupFactor : UInt8)
    (friNumberOfQueries cosetOffset : Nat) (grindingFactor target : UInt8) :
    Outcome InsecureOptionError ProofOptions := do
  checkFieldSecurity fieldBits target
  let numBits := leadingZeros 8 blowupFactor.toNat
  let bound ← usizeMulDivAdd mode grindingFactor.toNat numBits friNumberOfQueries 2
  if target.toNat < bound then .err .securityBits
  else return ⟨blowupFactor, friNumberOfQueries, cosetOffset, grindingFactor⟩

/-- `default_test_options` (src/starks/proof/options.rs:144-151). -/
def defaultTestOptions : ProofOptions := ⟨4, 3, 3, 1⟩

end ProofOptions
end Verif
