import Verif.Model.Air
import Verif.Model.Prover

/-!
# The example AIRs

Models `src/starks/example/`: the AIRs and the functions that build their traces.
-/

namespace Verif.ExampleAirs
variable {F : Type}

/-- `TraceTable::empty` (src/starks/trace.rs:16-21). -/
def emptyTable : TraceTable F := ⟨[], 0⟩

/-- `FibonacciPublicInputs` (src/starks/example/simple_fibonacci.rs:23-30). -/
structure FibonacciPublicInputs (F : Type) where
  a0 : F
  a1 : F

/-- `compute_transition` of `FibonacciAIR` (src/starks/example/simple_fibonacci.rs:76-86). -/
def fibonacciTransition [Field F] (frame : Frame F) (_ : Unit) : Outcome Empty (List F) := do
  let first ← frame.getRow 0
  let second ← frame.getRow 1
  let third ← frame.getRow 2
  let x ← index third 0
  let y ← index second 0
  let w ← index first 0
  return [x - y - w]

/-- `FibonacciAIR` (src/starks/example/simple_fibonacci.rs:13-113). -/
def fibonacci [Field F] : AirNew F Unit (FibonacciPublicInputs F) := fun traceLength pi options =>
  .ok {
    context := {
      proofOptions := options
      traceColumns := 1
      transitionDegrees := [1]
      transitionOffsets := [0, 1, 2]
      transitionExemptions := [2]
      numTransitionConstraints := 1
      numTransitionExemptions := 1 }
    traceLength := traceLength
    compositionPolyDegreeBound := traceLength
    numberAuxiliaryRapColumns := 0
    numRapChallenges := 0
    rapChallenges := fun _ => ()
    buildAuxiliaryTrace := fun _ _ => .ok emptyTable
    computeTransition := fibonacciTransition
    boundaryConstraints := fun _ => .ok [⟨0, 0, pi.a0⟩, ⟨0, 1, pi.a1⟩] }

/-- The loop of `fibonacci_trace`, `fibonacci_rap_trace` and `dummy_trace`
(src/starks/example/simple_fibonacci.rs:119-126, fibonacci_rap.rs:168-175, dummy_air.rs:105-115):
`ret.push(ret[i - 1] + ret[i - 2])` for `i` in `2..trace_length`. -/
def fibonacciLoop [Field F] (a0 a1 : F) (traceLength : Nat) : Outcome Empty (List F) :=
  (List.range' 2 (traceLength - 2)).foldlM (fun ret i => do
    let x ← index ret (i - 1)
    let y ← index ret (i - 2)
    return ret ++ [x + y]) [a0, a1]

/-- `fibonacci_trace` (src/starks/example/simple_fibonacci.rs:115-129). -/
def fibonacciTrace [Field F] (a0 a1 : F) (traceLength : Nat) : Outcome Empty (TraceTable F) := do
  let ret ← fibonacciLoop a0 a1 traceLength
  TraceTable.newFromCols [ret]

/-- `compute_transition` of `Fibonacci2ColsAIR` (src/starks/example/fibonacci_2_columns.rs:65-80). -/
def fibonacci2Transition [Field F] (frame : Frame F) (_ : Unit) : Outcome Empty (List F) := do
  let first ← frame.getRow 0
  let second ← frame.getRow 1
  let s0 ← index second 0
  let f0 ← index first 0
  let f1 ← index first 1
  let s1 ← index second 1
  return [s0 - f0 - f1, s1 - f1 - s0]

/-- `Fibonacci2ColsAIR` (src/starks/example/fibonacci_2_columns.rs:15-111). -/
def fibonacci2 [Field F] : AirNew F Unit (FibonacciPublicInputs F) := fun traceLength pi options =>
  .ok {
    context := {
      proofOptions := options
      traceColumns := 2
      transitionDegrees := [1, 1]
      transitionOffsets := [0, 1]
      transitionExemptions := [1, 1]
      numTransitionConstraints := 2
      numTransitionExemptions := 1 }
    traceLength := traceLength
    compositionPolyDegreeBound := traceLength
    numberAuxiliaryRapColumns := 0
    numRapChallenges := 0
    rapChallenges := fun _ => ()
    buildAuxiliaryTrace := fun _ _ => .ok emptyTable
    computeTransition := fibonacci2Transition
    boundaryConstraints := fun _ => .ok [⟨0, 0, pi.a0⟩, ⟨1, 0, pi.a1⟩] }

/-- `fibonacci_trace_2_columns` (src/starks/example/fibonacci_2_columns.rs:113-130). -/
def fibonacci2Trace [Field F] (a0 a1 : F) (traceLength : Nat) : Outcome Empty (TraceTable F) := do
  let ret ← (List.range' 1 (traceLength - 1)).foldlM (fun (ret : List F × List F) i => do
    let x ← index ret.1 (i - 1)
    let y ← index ret.2 (i - 1)
    return (ret.1 ++ [x + y], ret.2 ++ [x + y + y])) ([a0], [a1])
  TraceTable.newFromCols [ret.1, ret.2]

/-- `compute_transition` of `QuadraticAIR` (src/starks/example/quadratic_air.rs:71-80). -/
def quadraticTransition [Field F] (frame : Frame F) (_ : Unit) : Outcome Empty (List F) := do
  let first ← frame.getRow 0
  let second ← frame.getRow 1
  let x ← index second 0
  let y ← index first 0
  return [x - y * y]

/-- `QuadraticAIR` (src/starks/example/quadratic_air.rs:13-110); the public input is `a0`. -/
def quadratic [Field F] : AirNew F Unit F := fun traceLength a0 options =>
  .ok {
    context := {
      proofOptions := options
      traceColumns := 1
      transitionDegrees := [2]
      transitionOffsets := [0, 1]
      transitionExemptions := [1]
      numTransitionConstraints := 1
      numTransitionExemptions := 1 }
    traceLength := traceLength
    compositionPolyDegreeBound := 2 * traceLength
    numberAuxiliaryRapColumns := 0
    numRapChallenges := 0
    rapChallenges := fun _ => ()
    buildAuxiliaryTrace := fun _ _ => .ok emptyTable
    computeTransition := quadraticTransition
    boundaryConstraints := fun _ => .ok [⟨0, 0, a0⟩] }

/-- `quadratic_trace` (src/starks/example/quadratic_air.rs:112-125). -/
def quadraticTrace [Field F] (a0 : F) (traceLength : Nat) : Outcome Empty (TraceTable F) := do
  let ret ← (List.range' 1 (traceLength - 1)).foldlM (fun ret i => do
    let x ← index ret (i - 1)
    return ret ++ [x * x]) [a0]
  TraceTable.newFromCols [ret]

/-- `compute_transition` of `DummyAIR` (src/starks/example/dummy_air.rs:57-71). -/
def dummyTransition [Field F] (frame : Frame F) (_ : Unit) : Outcome Empty (List F) := do
  let first ← frame.getRow 0
  let second ← frame.getRow 1
  let third ← frame.getRow 2
  let f0 ← index first 0
  let t1 ← index third 1
  let s1 ← index second 1
  let f1 ← index first 1
  return [f0 * (f0 - 1), t1 - s1 - f1]

/-- `DummyAIR` (src/starks/example/dummy_air.rs:16-102), over any field. -/
def dummy [Field F] : AirNew F Unit Unit := fun traceLength _ options =>
  .ok {
    context := {
      proofOptions := options
      traceColumns := 2
      transitionDegrees := [2, 1]
      transitionOffsets := [0, 1, 2]
      transitionExemptions := [0, 2]
      numTransitionConstraints := 2
      numTransitionExemptions := 1 }
    traceLength := traceLength
    compositionPolyDegreeBound := traceLength
    numberAuxiliaryRapColumns := 0
    numRapChallenges := 0
    rapChallenges := fun _ => ()
    buildAuxiliaryTrace := fun _ _ => .ok emptyTable
    computeTransition := dummyTransition
    boundaryConstraints := fun _ => .ok [⟨1, 0, 1⟩, ⟨1, 1, 1⟩] }

/-- `dummy_trace` (src/starks/example/dummy_air.rs:104-118). -/
def dummyTrace [Field F] (traceLength : Nat) : Outcome Empty (TraceTable F) := do
  let ret ← fibonacciLoop (1 : F) 1 traceLength
  TraceTable.newFromCols [List.replicate traceLength 1, ret]

/-- `FibonacciRAPPublicInputs` (src/starks/example/fibonacci_rap.rs:30-38). -/
structure FibonacciRAPPublicInputs (F : Type) where
  steps : Nat
  a0 : F
  a1 : F

/-- `build_auxiliary_trace` of `FibonacciRAP` (src/starks/example/fibonacci_rap.rs:73-97). `div` by
zero panics. -/
def fibonacciRapAux [Field F] [DecidableEq F] (main : TraceTable F) (gamma : F) :
    Outcome Empty (TraceTable F) := do
  let cols ← main.cols
  let notPerm ← index cols 0
  let perm ← index cols 1
  let aux ← (List.range main.nRows).foldlM (fun (aux : List F) i => do
    if i = 0 then return aux ++ [1]
    else
      let z ← index aux (i - 1)
      let a ← index notPerm (i - 1)
      let b ← index perm (i - 1)
      let inv ← invOrPanic (b + gamma)
      return aux ++ [z * ((a + gamma) * inv)]) []
  TraceTable.newFromCols [aux]

/-- `compute_transition` of `FibonacciRAP` (src/starks/example/fibonacci_rap.rs:107-131). -/
def fibonacciRapTransition [Field F] (frame : Frame F) (gamma : F) : Outcome Empty (List F) := do
  let first ← frame.getRow 0
  let second ← frame.getRow 1
  let third ← frame.getRow 2
  let t0 ← index third 0
  let s0 ← index second 0
  let f0 ← index first 0
  let z ← index first 2
  let zNext ← index second 2
  let b ← index first 1
  return [t0 - s0 - f0, zNext * (b + gamma) - z * (f0 + gamma)]

/-- `FibonacciRAP` (src/starks/example/fibonacci_rap.rs:20-162). `3 + trace_length - steps - 1`
underflows (a panic) for too many steps. -/
def fibonacciRap [Field F] [DecidableEq F] : AirNew F F (FibonacciRAPPublicInputs F) :=
  fun traceLength pi options => do
    let e ← checkedSub (3 + traceLength) pi.steps
    let e ← checkedSub e 1
    return {
      context := {
        proofOptions := options
        traceColumns := 3
        transitionDegrees := [1, 2]
        transitionOffsets := [0, 1, 2]
        transitionExemptions := [e, 1]
        numTransitionConstraints := 2
        numTransitionExemptions := 2 }
      traceLength := traceLength
      compositionPolyDegreeBound := traceLength
      numberAuxiliaryRapColumns := 1
      numRapChallenges := 1
      rapChallenges := fun l => l.getD 0 0
      buildAuxiliaryTrace := fibonacciRapAux
      computeTransition := fibonacciRapTransition
      boundaryConstraints := fun _ => .ok [⟨0, 0, 1⟩, ⟨0, 1, 1⟩, ⟨2, 0, 1⟩] }

/-- `resize_to_next_power_of_two` (lambdaworks-math `helpers`, external) on one column.
Used at src/starks/example/fibonacci_rap.rs:185. -/
def resizeToPowerOfTwo [Zero F] (col : List F) : List F :=
  col ++ List.replicate (nextPowerOfTwo col.length - col.length) 0

/-- `fibonacci_rap_trace` (src/starks/example/fibonacci_rap.rs:164-188). -/
def fibonacciRapTrace [Field F] (a0 a1 : F) (traceLength : Nat) : Outcome Empty (TraceTable F) := do
  let fib ← fibonacciLoop a0 a1 traceLength
  -- `fib_seq[trace_length - 1]`: the subtraction or the index panics
  let last1 ← checkedSub traceLength 1
  let last ← index fib last1
  let perm := (fib.set 0 last).set last1 a0
  TraceTable.newFromCols [resizeToPowerOfTwo (fib ++ [0]), resizeToPowerOfTwo (perm ++ [0])]

end Verif.ExampleAirs
