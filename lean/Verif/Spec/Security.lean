import Verif.Model.Options

/-!
# Options of prover and verifier
-/

namespace Verif.Spec
variable {F Ch : Type}

/-- The AIR with other options. -/
def withOptions (air : Air F Ch) (options : ProofOptions) : Air F Ch :=
  { air with context := { air.context with proofOptions := options } }

/-- The two options describe the same domains: they differ in the number of queries and in the grinding
factor only. -/
structure SameDomain (options options' : ProofOptions) : Prop where
  blowup : options'.blowupFactor = options.blowupFactor
  offset : options'.cosetOffset = options.cosetOffset

/-- The presets, from the weakest to the strongest. -/
def rank : SecurityLevel → Nat
  | .conjecturable80Bits => 0
  | .conjecturable100Bits => 1
  | .conjecturable128Bits => 2
  | .provable80Bits => 3
  | .provable100Bits => 4
  | .provable128Bits => 5

end Verif.Spec
