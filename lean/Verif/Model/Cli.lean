import Verif.Model.Runner
import Verif.Model.CairoProof
import Verif.Model.PublicInputs
import Mathlib.Data.List.Infix

/-!
# The command line

Models `src/main.rs`. The files, the virtual machine and the external parts of prover and verifier are
parameters. What is printed is reduced to which message it is; times are not modelled.
-/

namespace Verif.Cli
open Runner
noncomputable section
variable {T : Type}

/-- What a command does in the end. See src/main.rs:72-161. -/
inductive Effect where
  /-- one of the usage messages (src/main.rs:78, 87, 112, 147) -/
  | usage
  /-- `Unknown command` (src/main.rs:158) -/
  | unknown
  /-- `Error opening .. file` (src/main.rs:25, 118) -/
  | notOpened
  /-- `Error generating prover args` (src/main.rs:31) -/
  | notRun
  /-- `Error writing proof to file` (src/main.rs:105) -/
  | notWritten
  /-- `Error reading proof from file` (src/main.rs:123, 129, 133, 139) -/
  | notRead
  /-- `Proof written to ..` (src/main.rs:108) -/
  | wrote (path : String) (contents : Bytes)
  /-- `Verification succeded` or `Verification failed` (src/main.rs:63-67) -/
  | verdict (accepted : Bool)
  deriving DecidableEq

/-- The outside world of a command: the contents of the files that can be read, and whether a path can be
written. See src/main.rs:24, 104, 117. -/
structure World where
  read : String → Option Bytes
  writable : String → Bool

/-- `input_path.contains(".casm")` (src/main.rs:16-22). -/
def versionOf (path : String) : CairoVersion :=
  if ".casm".toList <:+: path.toList then .v1 else .v0

/-- `generate_proof` (src/main.rs:10-50). `generate_cairo_proof` has no error outcome in the model of
`prove`, so the branch of src/main.rs:41-44 is absent. -/
def generateProof (env : Env FE T) (vm : Vm) (w : World) (path : String) (options : ProofOptions) :
    Outcome Effect (StarkProof FE × PublicInputs) := do
  let version := versionOf path
  let program ← Outcome.okOr (w.read path) Effect.notOpened
  match generateProverArgs vm program version none with
  | .panic => .panic
  | .err _ => .err .notRun
  | .ok (main, pi) =>
    let proof ← (CairoAir.generateCairoProof env main pi options).unwrapErr
    return (proof, pi)

/-- `verify_proof` (src/main.rs:52-70). -/
def verifyProof (env : Env FE T) (proof : StarkProof FE) (pi : PublicInputs) (options : ProofOptions) :
    Outcome Effect Effect := do
  let accepted ← (CairoAir.verifyCairoProof env proof pi options).unwrapErr
  return .verdict accepted

/-- The command `prove` (src/main.rs:85-109). -/
def proveCommand (env : Env FE T) (vm : Vm) (w : World) (args : List String) : Outcome Effect Effect :=
  match args with
  | _ :: _ :: inputPath :: outputPath :: _ => do
    let (proof, pi) ← generateProof env vm w inputPath ProofOptions.defaultTestOptions
    let bytes ← (writeProofFile proof pi).unwrapErr
    if w.writable outputPath then return .wrote outputPath bytes else return .notWritten
  | _ => return .usage

/-- The command `verify` (src/main.rs:110-144). -/
def verifyCommand (env : Env FE T) (w : World) (args : List String) : Outcome Effect Effect :=
  match args with
  | _ :: _ :: inputPath :: _ => do
    let bytes ← Outcome.okOr (w.read inputPath) Effect.notOpened
    match readProofFile bytes with
    | .panic => .panic
    | .err _ => return .notRead
    | .ok (proof, pi) => verifyProof env proof pi ProofOptions.defaultTestOptions
  | _ => return .usage

/-- The command `prove_and_verify` (src/main.rs:145-156). -/
def proveAndVerifyCommand (env : Env FE T) (vm : Vm) (w : World) (args : List String) :
    Outcome Effect Effect :=
  match args with
  | _ :: _ :: inputPath :: _ => do
    let (proof, pi) ← generateProof env vm w inputPath ProofOptions.defaultTestOptions
    verifyProof env proof pi ProofOptions.defaultTestOptions
  | _ => return .usage

/-- An early `return` after a message is that message's effect. See src/main.rs:76-160. -/
def finish (x : Outcome Effect Effect) : Outcome Empty Effect :=
  match x with
  | .ok e => .ok e
  | .err e => .ok e
  | .panic => .panic

/-- `main` (src/main.rs:72-161), given the arguments (the first one is the program's name). -/
def main (env : Env FE T) (vm : Vm) (w : World) (args : List String) : Outcome Empty Effect :=
  match args with
  | _ :: command :: _ =>
    if command = "prove" then finish (proveCommand env vm w args)
    else if command = "verify" then finish (verifyCommand env w args)
    else if command = "prove_and_verify" then finish (proveAndVerifyCommand env vm w args)
    else .ok .unknown
  | _ => .ok .usage

end
end Verif.Cli
