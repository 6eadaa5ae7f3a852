import Verif.Model.Prover
import Mathlib.Logic.Relation

/-!
# The parallel build

With the `parallel` feature four maps of the prover run on the thread pool of rayon: the low-degree
extension of the trace columns (src/starks/prover.rs:169-172), the extension of the exemption polynomials
(src/starks/constraints/evaluator.rs:307-310), the powers that adjust the degrees (evaluator.rs:136-140) and
the rows of the constraint evaluation (evaluator.rs:176-187). Everything else is the code of
Verif/Model/Prover.lean and Verif/Model/Evaluator.lean.

Simplified: a task is the closure on one element, and reads only data that no task writes (Rust's `Sync`
closures over shared references), so it is one function of its element; the chunks into which rayon cuts a
range are sequences of tasks.
-/

namespace Verif
noncomputable section
open Polynomial
variable {F T Ch : Type} [Field F] [DecidableEq F]

/-- One task of a parallel map (rayon, external).
Used at src/starks/constraints/evaluator.rs:178. -/
inductive Task (β : Type) where
  | waiting
  | running
  | done (b : β)
  | failed
  | abandoned

/-- The thread pool on a parallel map of `f` over `xs` (rayon, external). In any order, and while any number
of other tasks run, a thread begins a task, ends it and stores the result in its slot, or panics in it; after a
panic the tasks that have not begun may be abandoned.
Used at src/starks/constraints/evaluator.rs:178. -/
inductive PoolStep {α β : Type} (f : α → Outcome Empty β) (xs : List α) : List (Task β) → List (Task β) → Prop
  | start {s : List (Task β)} (i : Nat) : s[i]? = some .waiting → PoolStep f xs s (s.set i .running)
  | finish {s : List (Task β)} (i : Nat) (x : α) (b : β) : s[i]? = some .running → xs[i]? = some x → f x = .ok b →
      PoolStep f xs s (s.set i (.done b))
  | fail {s : List (Task β)} (i : Nat) (x : α) : s[i]? = some .running → xs[i]? = some x → f x = .panic →
      PoolStep f xs s (s.set i .failed)
  | abandon {s : List (Task β)} (i j : Nat) : s[i]? = some .waiting → s[j]? = some .failed →
      PoolStep f xs s (s.set i .abandoned)

/-- No task of the pool waits or runs (rayon, external).
Used at src/starks/constraints/evaluator.rs:178. -/
def PoolFinished {β : Type} (s : List (Task β)) : Prop :=
  ∀ i : Nat, s[i]? ≠ some .waiting ∧ s[i]? ≠ some .running

/-- `collect()` of a parallel map (rayon, external): the slots in order; a panic of a task is resumed in the
thread that collects. Used at src/starks/constraints/evaluator.rs:178. -/
def poolCollect {β : Type} (s : List (Task β)) : Outcome Empty (List β) :=
  mapOutcome (fun t => match t with
    | .done b => .ok b
    | _ => .panic) s

/-- A choice of an execution of the pool for every parallel map of a run of the program (rayon, external).
The maps of a run have different numbers. Used at src/starks/constraints/evaluator.rs:178. -/
structure Schedule where
  /-- the final state of the pool -/
  run : Nat → {α β : Type} → (α → Outcome Empty β) → List α → List (Task β)
  /-- it is reached from the state in which all tasks wait -/
  reached : ∀ k {α β : Type} (f : α → Outcome Empty β) (xs : List α),
    Relation.ReflTransGen (PoolStep f xs) (List.replicate xs.length .waiting) (run k f xs)
  /-- and all tasks have ended -/
  finished : ∀ k {α β : Type} (f : α → Outcome Empty β) (xs : List α), PoolFinished (run k f xs)

/-- `par_iter().map(f).collect()` (rayon, external) under a schedule.
Used at src/starks/prover.rs:172. -/
def parMap (S : Schedule) (k : Nat) {α β : Type} (f : α → Outcome Empty β) (xs : List α) :
    Outcome Empty (List β) := poolCollect (S.run k f xs)

/-- `evaluate_transition_exemptions` (src/starks/constraints/evaluator.rs:299-323), parallel. -/
def evaluateTransitionExemptionsPar (S : Schedule) (ta : TwoAdic F) (exemptions : List F[X]) (domain : Domain F) :
    Outcome Empty (List (List F)) :=
  parMap S 2 (fun e => evaluateOnLde ta e domain.blowupFactor domain.interpolationDomainSize
    domain.cosetOffset) exemptions

/-- `ConstraintEvaluator::evaluate` (src/starks/constraints/evaluator.rs:38-260), parallel: the zerofier of a
row is found by its index modulo their number (lines 176-182). -/
def evaluateConstraintsPar (S : Schedule) (ta : TwoAdic F) (air : Air F Ch) (boundary : List (BoundaryConstraint F))
    (ldeTrace : TraceTable F) (domain : Domain F) (transitionCoeffs boundaryCoeffs : List (F × F))
    (ch : Ch) : Outcome Empty (List F) := do
  let lde := domain.ldeRootsOfUnityCoset
  let boundaryZerofiers ← mapOutcome (fun bc : BoundaryConstraint F =>
    batchInverse (lde.map fun v => v - domain.tracePrimitiveRoot ^ bc.step)) boundary
  let n := air.traceLength
  let bound := air.compositionPolyDegreeBound
  let boundaryAdjustment ← checkedSub bound n
  let dPower := lde.map (· ^ boundaryAdjustment)
  if ldeTrace.nCols = 0 ∧ boundary ≠ [] then .panic
  else
    let boundaryPolys := boundary.map fun c =>
      (columnOf ldeTrace.table c.col ldeTrace.nCols lde.length).map (· - c.value)
    let boundaryEvaluation ← mapOutcome
      (fun x : Nat × F => boundaryEvaluationAt boundaryZerofiers boundaryPolys boundaryCoeffs
        boundary.length x.1 x.2) ((List.range lde.length).zip dPower)
    let blowup := air.context.proofOptions.blowupFactor.toNat
    let exemptions ← Verif.transitionExemptions ta air
    let exemptionEvaluations ← evaluateTransitionExemptionsPar S ta exemptions domain
    let maxDegree ← Outcome.ofOptionUnwrap air.context.transitionDegrees.max?
    let degreeAdjustments ← parMap S 3 (fun k => do
      let adjustment ← checkedSub bound (n * k)
      return lde.map (· ^ adjustment)) (List.range maxDegree)
    let offset : F := (air.context.proofOptions.cosetOffset : F)
    let powers ← ta.powersCoset (trailingZeros 8 blowup) blowup (offset ^ n)
    let zerofiers ← batchInverse (powers.map (· - 1))
    parMap S 4 (fun x : Nat × F =>
      if zerofiers.length = 0 then .panic
      else do
        let zerofier ← index zerofiers (x.1 % zerofiers.length)
        evaluateRow air ldeTrace exemptionEvaluations degreeAdjustments transitionCoeffs ch x.1 x.2 zerofier)
      ((List.range lde.length).zip boundaryEvaluation)

/-- `compute_lde_trace_evaluations` (src/starks/prover.rs:161-185), parallel. -/
def computeLdeTraceEvaluationsPar (S : Schedule) (k : Nat) (env : Env F T) (polys : List F[X]) (domain : Domain F) :
    Outcome Empty (List (List F)) :=
  parMap S k (fun p => evaluateOnLde env.ta p domain.blowupFactor domain.interpolationDomainSize
    domain.cosetOffset) polys

/-- `interpolate_and_commit` (src/starks/prover.rs:126-159), parallel. -/
def interpolateAndCommitPar (S : Schedule) (k : Nat) (env : Env F T) (trace : TraceTable F) (domain : Domain F) (t : T) :
    Outcome Empty ((List F[X] × List (List F) × Merkle.Tree × Commitment) × T) := do
  let polys ← trace.computeTracePolys env.ta
  let evaluations ← computeLdeTraceEvaluationsPar S k env polys domain
  let ldeTrace ← TraceTable.newFromCols evaluations
  let rows ← ldeTrace.rows
  let commit ← batchCommit env rows
  return ((polys, evaluations, commit.1, commit.2), env.tr.append t commit.2.val)

/-- `round_1_randomized_air_with_preprocessing` (src/starks/prover.rs:187-224), parallel. -/
def round1Par (S : Schedule) (env : Env F T) (air : Air F Ch) (mainTrace : TraceTable F) (domain : Domain F) (t : T) :
    Outcome Empty (Round1 F Ch × T) := do
  let main ← interpolateAndCommitPar S 0 env mainTrace domain t
  let rap := buildRapChallenges env air main.2
  let auxTrace ← air.buildAuxiliaryTrace mainTrace rap.1
  if auxTrace.nCols = 0 then
    let ldeTrace ← TraceTable.newFromCols main.1.2.1
    return (⟨main.1.1, ldeTrace, [main.1.2.2.1], [main.1.2.2.2], rap.1⟩, rap.2)
  else
    let aux ← interpolateAndCommitPar S 1 env auxTrace domain rap.2
    let ldeTrace ← TraceTable.newFromCols (main.1.2.1 ++ aux.1.2.1)
    return (⟨main.1.1 ++ aux.1.1, ldeTrace, [main.1.2.2.1, aux.1.2.2.1],
      [main.1.2.2.2, aux.1.2.2.2], rap.1⟩, aux.2)

/-- `round_2_compute_composition_polynomial` (src/starks/prover.rs:226-286), parallel. -/
def round2Par (S : Schedule) (env : Env F T) (air : Air F Ch) (domain : Domain F) (r1 : Round1 F Ch)
    (transitionCoeffs boundaryCoeffs : List (F × F)) : Outcome Empty (Round2 F) := do
  let boundary ← air.boundaryConstraints r1.rapChallenges
  let evaluations ← evaluateConstraintsPar S env.ta air boundary r1.ldeTrace domain transitionCoeffs
    boundaryCoeffs r1.rapChallenges
  let h ← computeCompositionPoly env.ta evaluations domain.cosetOffset
  let parts := evenOdd h
  let even ← evaluateOnLde env.ta parts.1 domain.blowupFactor domain.interpolationDomainSize
    domain.cosetOffset
  let odd ← evaluateOnLde env.ta parts.2 domain.blowupFactor domain.interpolationDomainSize
    domain.cosetOffset
  let commit ← batchCommit env ((even.zip odd).map fun x => [x.1, x.2])
  return ⟨parts.1, even, commit.1, commit.2, parts.2, odd⟩

/-- `prove` (src/starks/prover.rs:532-766), parallel. -/
def provePar {PI : Type} (S : Schedule) (env : Env F T) (new : AirNew F Ch PI) (mainTrace : TraceTable F) (pubInputs : PI)
    (options : ProofOptions) : Outcome Empty (StarkProof F) := do
  let air ← new mainTrace.nRows pubInputs options
  let domain ← Domain.new env.ta air
  let r1 ← round1Par S env air mainTrace domain env.tr.init
  let boundary ← air.boundaryConstraints r1.1.rapChallenges
  let alphasB := env.samples boundary.length r1.2
  let betasB := env.samples boundary.length alphasB.2
  let alphasT := env.samples air.context.numTransitionConstraints betasB.2
  let betasT := env.samples air.context.numTransitionConstraints alphasT.2
  let r2 ← round2Par S env air domain r1.1 (alphasT.1.zip betasT.1) (alphasB.1.zip betasB.1)
  let t := env.tr.append betasT.2 r2.compositionPolyRoot.val
  let z ← Outcome.ofOptionUnwrap (env.tr.sampleZOod env.ofDigest domain.ldeRootsOfUnityCoset
    domain.traceRootsOfUnity t)
  let r3 := round3 air domain r1.1 r2 z.1
  let t := env.appendField z.2 r3.compositionPolyEvenOodEvaluation
  let t := env.appendField t r3.compositionPolyOddOodEvaluation
  let t := r3.traceOodEvaluations.foldl (fun t row => row.foldl env.appendField t) t
  let r4 ← round4 env air domain r1.1 r2 r3 z.1 t
  return { traceLength := air.traceLength
           ldeTraceMerkleRoots := r1.1.ldeTraceMerkleRoots
           traceOodFrameEvaluations := ⟨r3.traceOodEvaluations.flatten, r1.1.tracePolys.length⟩
           compositionPolyRoot := r2.compositionPolyRoot
           compositionPolyEvenOodEvaluation := r3.compositionPolyEvenOodEvaluation
           compositionPolyOddOodEvaluation := r3.compositionPolyOddOodEvaluation
           friLayersMerkleRoots := r4.1.friLayersMerkleRoots
           friLastValue := r4.1.friLastValue
           queryList := r4.1.queryList
           deepPolyOpenings := r4.1.deepPolyOpenings
           nonce := r4.1.nonce }

end
end Verif
