import Verif.Model.Options
import Mathlib.LinearAlgebra.Lagrange
import Mathlib.RingTheory.RootsOfUnity.PrimitiveRoots

/-!
# Polynomials, roots of unity and fast Fourier transforms

What the code uses from lambdaworks-math (external): `Polynomial<FieldElement<F>>` is a Mathlib
polynomial, the fast transforms are given by the values they compute, and the two-adic roots of unity
of the field are a parameter.
-/

namespace Verif

/-- `IsFFTField` (lambdaworks, external): `get_primitive_root_of_unity(k)` is a primitive root of order
`2^k`, the square of the next one, and fails above the two-adicity of the field. Nothing is assumed
for `k = 0`. Used at src/starks/domain.rs:30. -/
structure TwoAdic (F : Type) [Field F] where
  adicity : Nat
  root : Nat → Option F
  primitive : ∀ k w, 1 ≤ k → root k = some w → IsPrimitiveRoot w (2 ^ k)
  defined : ∀ k, 1 ≤ k → k ≤ adicity → (root k).isSome
  square : ∀ k w w', 1 ≤ k → root k = some w → root (k + 1) = some w' → w' ^ 2 = w
  undefined : ∀ k, adicity < k → root k = none

noncomputable section
open Polynomial
variable {F : Type} [Field F]

/-- `get_primitive_root_of_unity(k).unwrap()` (lambdaworks, external).
Used at src/starks/domain.rs:30. -/
def TwoAdic.getRoot (ta : TwoAdic F) (k : Nat) : Outcome Empty F := Outcome.ofOptionUnwrap (ta.root k)

/-- `get_powers_of_primitive_root_coset(k, count, offset).unwrap()` (lambdaworks, external).
Used at src/starks/domain.rs:31. -/
def TwoAdic.powersCoset (ta : TwoAdic F) (k count : Nat) (offset : F) : Outcome Empty (List F) := do
  let w ← ta.getRoot k
  return (List.range count).map fun i => w ^ i * offset

/-- `FieldElement::inplace_batch_inverse` (lambdaworks, external): inverts every element, panics when
one of them is zero. Used at src/starks/verifier.rs:252. -/
def batchInverse [DecidableEq F] (l : List F) : Outcome Empty (List F) :=
  if 0 ∈ l then .panic else .ok (l.map (·⁻¹))

/-- `FieldElement::inv` (lambdaworks, external): panics on zero.
Used at src/starks/verifier.rs:267. -/
def invOrPanic [DecidableEq F] (x : F) : Outcome Empty F := if x = 0 then .panic else .ok x⁻¹

/-- `Polynomial::coefficients` (lambdaworks, external): no trailing zeros, none for zero.
Used at src/starks/fri/fri_functions.rs:11. -/
def coefficients [DecidableEq F] (p : F[X]) : List F :=
  (List.range (if p = 0 then 0 else p.natDegree + 1)).map p.coeff

/-- `Polynomial::new` (lambdaworks, external): the polynomial with the given coefficients.
Used at src/starks/fri/fri_functions.rs:23. -/
def polyNew (l : List F) : F[X] := ∑ i ∈ Finset.range l.length, monomial i (l.getD i 0)

/-- `iter().step_by(2)` on a list (Rust core). Used at src/starks/fri/fri_functions.rs:12. -/
def everySecond {α : Type} : List α → List α
  | a :: _ :: rest => a :: everySecond rest
  | l => l

/-- `even_odd_decomposition` (lambdaworks, external). Used at src/starks/prover.rs:252. -/
def evenOdd [DecidableEq F] (p : F[X]) : F[X] × F[X] :=
  (polyNew (everySecond (coefficients p)), polyNew (everySecond ((coefficients p).drop 1)))

/-- `ruffini_division_inplace(b)` (lambdaworks, external): the quotient by `X - b`.
Used at src/starks/prover.rs:436. -/
def ruffini (p : F[X]) (b : F) : F[X] := p /ₘ (X - C b)

/-- `next_power_of_two` (Rust core). Used at src/starks/prover.rs:117. -/
def nextPowerOfTwo (n : Nat) : Nat := 2 ^ Nat.clog 2 n

/-- `evaluate_offset_fft(blowup, Some(size), offset).unwrap()` (lambdaworks, external): the values at
`offset * w^i`, for the `len` powers of the root of order `len`, where `len` is `blowup` times the
least power of two that is at least `size` and the number of coefficients. The transform fails when
`len` is not a power of two. Used at src/starks/prover.rs:117. -/
def evaluateOffsetFft [DecidableEq F] (ta : TwoAdic F) (p : F[X]) (blowup size : Nat) (offset : F) :
    Outcome Empty (List F) :=
  let len := nextPowerOfTwo (max (coefficients p).length size) * blowup
  if len ≠ 2 ^ Nat.log 2 len then .panic
  else do
    let w ← ta.getRoot (trailingZeros 64 len)
    return (List.range len).map fun i => p.eval (w ^ i * offset)

/-- `interpolate_offset_fft(values, offset).unwrap()` (lambdaworks, external): the polynomial of degree
below the number of values with these values at `offset * w^i`. The transform fails when the number
of values is not a power of two; the division by the offset panics when it is zero.
Used at src/starks/constraints/evaluation_table.rs:32. -/
def interpolateOffsetFft [DecidableEq F] (ta : TwoAdic F) (values : List F) (offset : F) : Outcome Empty F[X] :=
  if values.length ≠ 2 ^ Nat.log 2 values.length then .panic
  else do
    let w ← ta.getRoot (trailingZeros 64 values.length)
    if offset = 0 then .panic
    else
      return Lagrange.interpolate (Finset.range values.length) (fun i => w ^ i * offset)
        (fun i => values.getD i 0)

/-- `TraceTable::compute_trace_polys` (src/starks/trace.rs:104-110): `interpolate_fft` on every
column. -/
def TraceTable.computeTracePolys [DecidableEq F] (ta : TwoAdic F) (t : TraceTable F) : Outcome Empty (List F[X]) := do
  let cols ← t.cols
  mapOutcome (fun col => interpolateOffsetFft ta col 1) cols

/-- `evaluate_polynomial_on_lde_domain` (src/starks/prover.rs:106-123). `step_by(0)` and a division by
zero panic. -/
def evaluateOnLde [DecidableEq F] (ta : TwoAdic F) (p : F[X]) (blowup size : Nat) (offset : F) :
    Outcome Empty (List F) := do
  let evaluations ← evaluateOffsetFft ta p blowup size offset
  if size * blowup = 0 then .panic
  else
    let step := evaluations.length / (size * blowup)
    if step = 1 then return evaluations
    else if step = 0 then .panic
    else return (TraceTable.stepBy evaluations.length step).map fun i => evaluations.getD i 0

/-! ## Domains (src/starks/domain.rs) -/

/-- `Domain` (src/starks/domain.rs:8-17). -/
structure Domain (F : Type) where
  rootOrder : Nat
  ldeRootsOfUnityCoset : List F
  ldeRootOrder : Nat
  tracePrimitiveRoot : F
  traceRootsOfUnity : List F
  cosetOffset : F
  blowupFactor : Nat
  interpolationDomainSize : Nat

/-- `Domain::new` (src/starks/domain.rs:20-56). The product of the trace length and the blowup factor
panics on overflow (debug builds; release builds wrap around). -/
def Domain.new {Ch : Type} (ta : TwoAdic F) (air : Air F Ch) : Outcome Empty (Domain F) := do
  let blowup := air.context.proofOptions.blowupFactor.toNat
  let offset : F := (air.context.proofOptions.cosetOffset : F)
  let rootOrder := trailingZeros 64 air.traceLength
  let g ← ta.getRoot rootOrder
  let traceRoots ← ta.powersCoset rootOrder air.traceLength 1
  if 2^64 ≤ air.traceLength * blowup then .panic
  else
    let ldeRootOrder := trailingZeros 64 (air.traceLength * blowup)
    let lde ← ta.powersCoset ldeRootOrder (air.traceLength * blowup) offset
    return { rootOrder := rootOrder, ldeRootsOfUnityCoset := lde, ldeRootOrder := ldeRootOrder,
             tracePrimitiveRoot := g, traceRootsOfUnity := traceRoots, cosetOffset := offset,
             blowupFactor := blowup, interpolationDomainSize := air.traceLength }

/-! ## Transition exemptions (src/starks/traits.rs) -/

/-- `unique_by(|e| *e)` (itertools, external): the first occurrence of every element.
Used at src/starks/traits.rs:65. -/
def unique {α : Type} [DecidableEq α] (l : List α) : List α :=
  (l.foldl (fun acc x => if x ∈ acc then acc else acc ++ [x]) [])

/-- `AIR::transition_exemptions` (src/starks/traits.rs:49-79). -/
def transitionExemptions {Ch : Type} (ta : TwoAdic F) (air : Air F Ch) :
    Outcome Empty (List F[X]) := do
  let roots ← ta.powersCoset (trailingZeros 64 air.traceLength) air.traceLength 1
  return ((unique air.context.transitionExemptions).filter (0 < ·)).map fun cantTake =>
    ((roots.take roots.length).reverse.take cantTake).foldl (fun acc r => acc * (X - C r)) 1

/-- `AIR::transition_exemptions_verifier` (src/starks/traits.rs:98-118). -/
def transitionExemptionsVerifier {Ch : Type} (air : Air F Ch) (root : F) :
    Outcome Empty (List F[X]) := do
  let max ← Outcome.ofOptionUnwrap air.context.transitionExemptions.max?
  return (List.range max).map fun i =>
    (List.range (i + 1)).foldl (fun acc k => acc * (X - C (root ^ (k + 1)))) 1

/-! ## Boundary polynomials (src/starks/constraints/boundary.rs) -/

namespace Boundary

/-- `BoundaryConstraints::steps` (src/starks/constraints/boundary.rs:55-61). -/
def steps (cs : List (BoundaryConstraint F)) (col : Nat) : List Nat :=
  (cs.filter (·.col = col)).map (·.step)

/-- `unique_by(key).map(key)` (itertools, external) on the constraints.
Used at src/starks/constraints/boundary.rs:66, 74. -/
def uniqueBy (key : BoundaryConstraint F → Nat) (cs : List (BoundaryConstraint F)) : List Nat :=
  unique (cs.map key)

/-- `steps_for_boundary` (src/starks/constraints/boundary.rs:63-69). -/
def stepsForBoundary (cs : List (BoundaryConstraint F)) : List Nat := uniqueBy (·.step) cs

/-- `cols_for_boundary` (src/starks/constraints/boundary.rs:71-77). -/
def colsForBoundary (cs : List (BoundaryConstraint F)) : List Nat := uniqueBy (·.col) cs

/-- `generate_roots_of_unity` (src/starks/constraints/boundary.rs:82-96). -/
def generateRootsOfUnity (cs : List (BoundaryConstraint F)) (g : F) (cols : List Nat) :
    List (List F) :=
  cols.map fun c => (steps cs c).map fun s => g ^ s

/-- `values` (src/starks/constraints/boundary.rs:100-111). -/
def values (cs : List (BoundaryConstraint F)) (cols : List Nat) : List (List F) :=
  cols.map fun c => (cs.filter (·.col = c)).map (·.value)

/-- `compute_zerofier` (src/starks/constraints/boundary.rs:119-133). -/
def computeZerofier (cs : List (BoundaryConstraint F)) (g : F) (col : Nat) : F[X] :=
  (steps cs col).foldl (fun zerofier step => zerofier * polyNew [-(g ^ step), 1]) 1

end Boundary

end
end Verif
