import Verif.Examples.Simple
import Verif.Examples.SmallEnv
import Verif.Examples.StarkEnv
import Verif.Examples.Traces
import Verif.Examples.WideEnv
import Verif.Lemmas.Accept
import Verif.Lemmas.AnyLength
import Verif.Lemmas.AuxTrace
import Verif.Lemmas.Bits
import Verif.Lemmas.Bytes
import Verif.Lemmas.CairoAir
import Verif.Lemmas.CairoDeclared
import Verif.Lemmas.CairoImport
import Verif.Lemmas.CairoPoly
import Verif.Lemmas.CairoSat
import Verif.Lemmas.CairoSound
import Verif.Lemmas.Cli
import Verif.Lemmas.Collision
import Verif.Lemmas.Complete
import Verif.Lemmas.Composition
import Verif.Lemmas.Debug
import Verif.Lemmas.Decode
import Verif.Lemmas.Deep
import Verif.Lemmas.DeepDecode
import Verif.Lemmas.DeepSound
import Verif.Lemmas.Derivation
import Verif.Lemmas.Draws
import Verif.Lemmas.Evaluator
import Verif.Lemmas.ExampleAirs
import Verif.Lemmas.ExecutionTrace
import Verif.Lemmas.Extract
import Verif.Lemmas.Extracted
import Verif.Lemmas.FiatShamir
import Verif.Lemmas.Forge
import Verif.Lemmas.ForgeTrace
import Verif.Lemmas.ForgedProof
import Verif.Lemmas.Format
import Verif.Lemmas.Fri
import Verif.Lemmas.FriSound
import Verif.Lemmas.Heard
import Verif.Lemmas.Holes
import Verif.Lemmas.Honest
import Verif.Lemmas.HonestExists
import Verif.Lemmas.HonestGap
import Verif.Lemmas.HonestMemory
import Verif.Lemmas.HonestSat
import Verif.Lemmas.Layout
import Verif.Lemmas.MainTable
import Verif.Lemmas.MainTrace
import Verif.Lemmas.Merkle
import Verif.Lemmas.NoPanic
import Verif.Lemmas.Ordered
import Verif.Lemmas.OutOfDomain
import Verif.Lemmas.Parallel
import Verif.Lemmas.Patient
import Verif.Lemmas.Permutation
import Verif.Lemmas.Poly
import Verif.Lemmas.Probability
import Verif.Lemmas.Prog
import Verif.Lemmas.ProveProg
import Verif.Lemmas.ProveTalk
import Verif.Lemmas.ProveVerdict
import Verif.Lemmas.Proximity
import Verif.Lemmas.PubMem
import Verif.Lemmas.PublicInputs
import Verif.Lemmas.Random
import Verif.Lemmas.RcBuiltin
import Verif.Lemmas.Readable
import Verif.Lemmas.Release
import Verif.Lemmas.ReleaseProver
import Verif.Lemmas.Replay
import Verif.Lemmas.RoundByRound
import Verif.Lemmas.Rounds
import Verif.Lemmas.Search
import Verif.Lemmas.Shape
import Verif.Lemmas.ShapedForgery
import Verif.Lemmas.Stark
import Verif.Lemmas.StarkSound
import Verif.Lemmas.StepComplete
import Verif.Lemmas.StepSound
import Verif.Lemmas.Thorough
import Verif.Lemmas.Trace
import Verif.Lemmas.TraceOpenings
import Verif.Lemmas.Tree
import Verif.Lemmas.Truncated
import Verif.Lemmas.TwoAdic
import Verif.Lemmas.Unsatisfied
import Verif.Lemmas.Validate
import Verif.Lemmas.Verdict
import Verif.Lemmas.Verifier
import Verif.Lemmas.VerifyTalk
import Verif.Lemmas.WeightTalk
import Verif.Lemmas.Width
import Verif.Model.Air
import Verif.Model.Backends
import Verif.Model.Bytes
import Verif.Model.CairoAir
import Verif.Model.CairoImport
import Verif.Model.CairoProof
import Verif.Model.Cli
import Verif.Model.CompositionSum
import Verif.Model.Debug
import Verif.Model.Decode
import Verif.Model.Evaluator
import Verif.Model.ExampleAirs
import Verif.Model.ExecutionTrace
import Verif.Model.Field
import Verif.Model.Files
import Verif.Model.Fri
import Verif.Model.Grinding
import Verif.Model.HMap
import Verif.Model.MainTable
import Verif.Model.Merkle
import Verif.Model.Options
import Verif.Model.Outcome
import Verif.Model.Parallel
import Verif.Model.Poly
import Verif.Model.ProofCodec
import Verif.Model.Prover
import Verif.Model.PublicInputs
import Verif.Model.Release
import Verif.Model.ReleaseProver
import Verif.Model.Roots
import Verif.Model.Runner
import Verif.Model.Trace
import Verif.Model.Transcript
import Verif.Model.Verifier
import Verif.Props.AnyLength
import Verif.Props.AnyLengthFile
import Verif.Props.AnyLengthRandom
import Verif.Props.AnyProver
import Verif.Props.AnyTrace
import Verif.Props.Attempts
import Verif.Props.AuxTrace
import Verif.Props.Binding
import Verif.Props.CairoAir
import Verif.Props.CairoHonest
import Verif.Props.CairoImport
import Verif.Props.CairoPanics
import Verif.Props.CairoPermutation
import Verif.Props.CairoProves
import Verif.Props.CairoRun
import Verif.Props.CairoSound
import Verif.Props.Claim
import Verif.Props.Cli
import Verif.Props.Codec
import Verif.Props.Collision
import Verif.Props.Commands
import Verif.Props.CompositionSum
import Verif.Props.Constraints
import Verif.Props.Debug
import Verif.Props.Decode
import Verif.Props.Derivation
import Verif.Props.ExampleAirs
import Verif.Props.Extension
import Verif.Props.Extract
import Verif.Props.Extracted
import Verif.Props.FiatShamir
import Verif.Props.Files
import Verif.Props.Format
import Verif.Props.FrameBounds
import Verif.Props.Fri
import Verif.Props.FriSound
import Verif.Props.GapRejected
import Verif.Props.Grinding
import Verif.Props.Heard
import Verif.Props.HonestGap
import Verif.Props.HonestOpened
import Verif.Props.HonestTrace
import Verif.Props.Inputs
import Verif.Props.Layout
import Verif.Props.MainTable
import Verif.Props.MainTrace
import Verif.Props.MapOrder
import Verif.Props.MemoryHoles
import Verif.Props.NoPanic
import Verif.Props.Options
import Verif.Props.OutOfDomain
import Verif.Props.Output
import Verif.Props.Padding
import Verif.Props.Parallel
import Verif.Props.Parameters
import Verif.Props.RandomAnswers
import Verif.Props.RandomForge
import Verif.Props.RandomForgery
import Verif.Props.RandomHash
import Verif.Props.RandomOracle
import Verif.Props.RandomReject
import Verif.Props.RandomRun
import Verif.Props.RandomShaped
import Verif.Props.RapSound
import Verif.Props.RelayedFile
import Verif.Props.Release
import Verif.Props.ReleaseProver
import Verif.Props.Security
import Verif.Props.Shape
import Verif.Props.ShapedForgery
import Verif.Props.Stark
import Verif.Props.StarkSound
import Verif.Props.Steps
import Verif.Props.Succinct
import Verif.Props.Tamper
import Verif.Props.TraceOpenings
import Verif.Props.TraceTable
import Verif.Props.Transcript
import Verif.Props.Truncated
import Verif.Props.Unsatisfied
import Verif.Props.Validate
import Verif.Props.ValidateAnswers
import Verif.Props.Verdict
import Verif.Props.Verifier
import Verif.Props.VerifyPanics
import Verif.Props.Work
import Verif.Spec.Air
import Verif.Spec.Binding
import Verif.Spec.Builds
import Verif.Spec.Cairo
import Verif.Spec.CairoImport
import Verif.Spec.CairoTrace
import Verif.Spec.Claim
import Verif.Spec.Cli
import Verif.Spec.Collision
import Verif.Spec.Commands
import Verif.Spec.Decode
import Verif.Spec.Derivation
import Verif.Spec.ExampleAirs
import Verif.Spec.Extract
import Verif.Spec.Extracted
import Verif.Spec.FiatShamir
import Verif.Spec.Format
import Verif.Spec.Grinding
import Verif.Spec.Heard
import Verif.Spec.Inputs
import Verif.Spec.Layout
import Verif.Spec.MapOrder
import Verif.Spec.OpenedWeight
import Verif.Spec.Options
import Verif.Spec.Oracle
import Verif.Spec.Ordered
import Verif.Spec.Parameters
import Verif.Spec.Placed
import Verif.Spec.Probability
import Verif.Spec.Proximity
import Verif.Spec.PublicInputs
import Verif.Spec.Random
import Verif.Spec.Readable
import Verif.Spec.Replay
import Verif.Spec.Rows
import Verif.Spec.Run
import Verif.Spec.Security
import Verif.Spec.Shape
import Verif.Spec.Sizes
import Verif.Spec.Sound
import Verif.Spec.Soundness
import Verif.Spec.Stark
import Verif.Spec.Unsatisfied
import Verif.Spec.Verdict
import Verif.Spec.Verifier
import Verif.Spec.Work
