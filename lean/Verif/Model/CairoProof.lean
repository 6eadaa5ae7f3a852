import Verif.Model.Air
import Verif.Model.Verifier

/-!
# Proofs of Cairo programs

Models the entry points of `src/cairo/air.rs`.
-/

namespace Verif.CairoAir
noncomputable section
variable {T : Type}

/-- `CairoAIR::new` (src/cairo/air.rs:587-658). The `debug_assert!` that the length is a power of two is
not modelled (release builds do not have it). -/
def new : AirNew FE (RAPChallenges FE) PublicInputs := fun traceLength pi options =>
  .ok (air traceLength pi options)

/-- `generate_cairo_proof` (src/cairo/air.rs:1165-1171). -/
def generateCairoProof (env : Env FE T) (trace : TraceTable FE) (pi : PublicInputs)
    (options : ProofOptions) : Outcome Empty (StarkProof FE) :=
  prove env new trace pi options

/-- `verify_cairo_proof` (src/cairo/air.rs:1176-1182). -/
def verifyCairoProof (env : Env FE T) (proof : StarkProof FE) (pi : PublicInputs)
    (options : ProofOptions) : Outcome Empty Bool :=
  verify env new proof pi options

end
end Verif.CairoAir
