import Verif.Model.Verifier
import Mathlib.Algebra.MvPolynomial.Eval
import Mathlib.Algebra.MvPolynomial.Degrees

/-!
# Composition polynomials

The mathematics behind the prover and the verifier, written without the definitions of the model.
`g` generates the trace domain, of size `n`.
-/

namespace Verif.Spec
open Polynomial
variable {F Ch : Type} [Field F]

/-- The polynomial vanishing on the last `e` points of the trace domain. -/
noncomputable def exemption (g : F) (n e : Nat) : F[X] :=
  ∏ i ∈ Finset.Ico (n - e) n, (X - C (g ^ i))

/-- The value of the boundary quotients at `x`, where `col j` is the value of column `j`. -/
def boundaryAt (g x : F) (n bound : Nat) (col : Nat → F) (boundary : List (BoundaryConstraint F))
    (coeffs : List (F × F)) : F :=
  ((boundary.zip coeffs).map fun (c, (α, β)) =>
    (col c.col - c.value) / (x - g ^ c.step) * (α * x ^ (bound - n) + β)).sum

/-- The value of the transition quotients at `x`, where `evals` are the values of the constraints. A
constraint of degree `d` exempted from the last `e` rows contributes
`value * exemption(x) / (x^n - 1) * (α x^(bound - n (d-1)) + β)`. -/
noncomputable def transitionAt (g x : F) (n bound : Nat) (evals : List F)
    (degrees exemptions : List Nat) (coeffs : List (F × F)) : F :=
  ((((evals.zip degrees).zip exemptions).zip coeffs).map fun (((v, d), e), (α, β)) =>
    v * (exemption g n e).eval x / (x ^ n - 1) * (α * x ^ (bound - n * (d - 1)) + β)).sum

/-- The rows of a frame of trace polynomials at the point `x`: the values of all the polynomials at
`x g^o` for every offset `o`. -/
noncomputable def frameRows (polys : List F[X]) (offsets : List Nat) (g x : F) : List (List F) :=
  offsets.map fun o => polys.map fun p => p.eval (x * g ^ o)

/-- The random combination of the constraint quotients of an AIR at `x`, from the values `col j` of the
columns at `x` and the values `evals` of the transition constraints. -/
noncomputable def compositionOf (air : Air F Ch) (g : F) (col : Nat → F)
    (boundary : List (BoundaryConstraint F)) (evals : List F) (boundaryCoeffs transitionCoeffs : List (F × F))
    (x : F) : F :=
  boundaryAt g x air.traceLength air.compositionPolyDegreeBound col boundary boundaryCoeffs
    + transitionAt g x air.traceLength air.compositionPolyDegreeBound evals
      air.context.transitionDegrees air.context.transitionExemptions transitionCoeffs

/-- The value at `x` of the composition of the constraints of an AIR on trace polynomials. -/
noncomputable def compositionAt (air : Air F Ch) (g : F) (polys : List F[X])
    (boundary : List (BoundaryConstraint F)) (evals : List F) (boundaryCoeffs transitionCoeffs : List (F × F))
    (x : F) : F :=
  compositionOf air g (fun j => (polys.getD j 0).eval x) boundary evals boundaryCoeffs transitionCoeffs x

/-- The transition constraints of an AIR, for given challenges, are the polynomials `cs` in the cells
of a frame (`(i, j)` is the cell in row `i` and column `j`), and the declared degrees bound their
degrees. -/
structure PolynomialConstraints (air : Air F Ch) (ch : Ch) (cs : List (MvPolynomial (Nat × Nat) F)) :
    Prop where
  computes : ∀ rows : List (List F), rows.length = air.context.transitionOffsets.length →
    (∀ r ∈ rows, r.length = air.context.traceColumns) →
    air.computeTransition ⟨rows.flatten, air.context.traceColumns⟩ ch
      = .ok (cs.map (MvPolynomial.eval fun ij => (rows.getD ij.1 []).getD ij.2 0))
  degrees : ∀ (k : Nat) c d, cs[k]? = some c → air.context.transitionDegrees[k]? = some d →
    c.totalDegree ≤ d

/-- The values of the constraint polynomials on the frame of trace polynomials at `x`. -/
noncomputable def constraintsAt (cs : List (MvPolynomial (Nat × Nat) F)) (polys : List F[X])
    (offsets : List Nat) (g x : F) : List F :=
  cs.map (MvPolynomial.eval fun ij => ((frameRows polys offsets g x).getD ij.1 []).getD ij.2 0)

/-- The data an AIR declares allow the prover to work with a composition polynomial of degree below
`2n`. -/
structure Fits (air : Air F Ch) : Prop where
  offsets : air.context.transitionOffsets = List.range air.context.transitionOffsets.length
  offsets_pos : 0 < air.context.transitionOffsets.length
  columns_pos : 0 < air.context.traceColumns
  aux_le : air.numberAuxiliaryRapColumns ≤ air.context.traceColumns
  constraints_pos : 0 < air.context.numTransitionConstraints
  degrees_len : air.context.transitionDegrees.length = air.context.numTransitionConstraints
  exemptions_len : air.context.transitionExemptions.length = air.context.numTransitionConstraints
  degrees_pos : ∀ d ∈ air.context.transitionDegrees, 1 ≤ d
  bound_ge : air.traceLength ≤ air.compositionPolyDegreeBound
  bound_le : air.compositionPolyDegreeBound ≤ 2 * air.traceLength
  bound_degrees : ∀ d ∈ air.context.transitionDegrees,
    air.traceLength * (d - 1) ≤ air.compositionPolyDegreeBound
  exemptions_lt : ∀ e ∈ air.context.transitionExemptions, e < air.traceLength
  single_exemption : air.context.numTransitionExemptions = 1 →
    ∀ e ∈ air.context.transitionExemptions, ∀ e' ∈ air.context.transitionExemptions,
      0 < e → 0 < e' → e = e'
  bound_exemptions : ∀ (k d e : Nat), air.context.transitionDegrees[k]? = some d →
    air.context.transitionExemptions[k]? = some e →
    air.compositionPolyDegreeBound + e < 2 * air.traceLength + d

/-- The setting of a run: a trace of `2^a` rows whose domain is extended `2^b` times, `1 ≤ a` and
`1 ≤ b`, and a coset offset other than zero. -/
structure Setting (air : Air F Ch) (a b : Nat) : Prop where
  rows : 1 ≤ a
  extended : 1 ≤ b
  length : air.traceLength = 2 ^ a
  blowup : air.context.proofOptions.blowupFactor.toNat = 2 ^ b
  offset : (air.context.proofOptions.cosetOffset : F) ≠ 0
  fits : Fits air

/-- The challenges of the auxiliary trace that are drawn when `root` is the first commitment. -/
abbrev challengesAfter {T : Type} (env : Env F T) (air : Air F Ch) (root : Commitment) : Ch :=
  (buildRapChallenges env air (env.tr.append env.tr.init root.val)).1

/-- `root` is the commitment the prover makes to a trace. -/
def CommitmentTo [DecidableEq F] {T : Type} (env : Env F T) (air : Air F Ch) (trace : TraceTable F) (root : Commitment) : Prop :=
  ∃ d r, Domain.new env.ta air = .ok d ∧ interpolateAndCommit env trace d env.tr.init = .ok r ∧ r.1.2.2.2 = root

/-- The sampling of a point outside the domains of a run ends, from every state of the transcript. -/
def SamplingEnds [DecidableEq F] {T : Type} (env : Env F T) (air : Air F Ch) : Prop :=
  ∀ d t, Domain.new env.ta air = .ok d →
    env.tr.sampleZOod env.ofDigest d.ldeRootsOfUnityCoset d.traceRootsOfUnity t ≠ none

/-- The value at `x` of the DEEP composition: the random combination of the quotients of the trace
polynomials at the points `z g^o` (with the coefficients of `gammas`, a row for every polynomial) and of
the two halves of the composition polynomial at `z^2`. -/
noncomputable def deepAt (polys : List F[X]) (offsets : List Nat) (even odd : F[X]) (g z : F)
    (gammas : List (List F)) (gammaEven gammaOdd : F) (x : F) : F :=
  ((polys.zip gammas).map fun (p, row) => ((offsets.zip row).map fun (o, γ) =>
      γ * ((p.eval x - p.eval (z * g ^ o)) / (x - z * g ^ o))).sum).sum
    + gammaEven * ((even.eval x - even.eval (z ^ 2)) / (x - z ^ 2))
    + gammaOdd * ((odd.eval x - odd.eval (z ^ 2)) / (x - z ^ 2))

/-- The combination of all the constraints at row `i` of the trace, free of denominators: a boundary constraint
counts in its row, a transition constraint in the rows it does not exempt. `evals` are the values of the
transition constraints in row `i`. -/
noncomputable def combinedAtRow (air : Air F Ch) (g : F) (polys : List F[X])
    (boundary : List (BoundaryConstraint F)) (evals : List F) (boundaryCoeffs transitionCoeffs : List (F × F))
    (i : Nat) : F :=
  ((boundary.zip boundaryCoeffs).map fun (c, (α, β)) =>
    if c.step % air.traceLength = i then
      ((polys.getD c.col 0).eval (g ^ i) - c.value) * (∏ j ∈ (Finset.range air.traceLength).erase i, (g ^ i - g ^ j))
        * (α * (g ^ i) ^ (air.compositionPolyDegreeBound - air.traceLength) + β)
    else 0).sum
  + ((((evals.zip air.context.transitionDegrees).zip air.context.transitionExemptions).zip
      transitionCoeffs).map fun (((v, d), e), (α, β)) =>
    v * (exemption g air.traceLength e).eval (g ^ i)
      * (α * (g ^ i) ^ (air.compositionPolyDegreeBound - air.traceLength * (d - 1)) + β)).sum

/-- The out-of-domain check of the verifier accepts at the point `z` when the proof carries the values of the
trace polynomials `polys` and of the halves `even` and `odd` there. -/
def OodAccepts [DecidableEq F] (air : Air F Ch) (d : Domain F) (polys : List F[X]) (even odd : F[X]) (ch : Ch)
    (boundaryCoeffs transitionCoeffs : List (F × F)) (z : F) : Prop :=
  ∃ (proof : StarkProof F) (c : Challenges F Ch),
    c.z = z ∧ c.rapChallenges = ch ∧ c.boundaryCoeffs = boundaryCoeffs ∧ c.transitionCoeffs = transitionCoeffs ∧
    proof.traceOodFrameEvaluations
      = ⟨(frameRows polys air.context.transitionOffsets d.tracePrimitiveRoot z).flatten, polys.length⟩ ∧
    proof.compositionPolyEvenOodEvaluation = even.eval (z ^ 2) ∧
    proof.compositionPolyOddOodEvaluation = odd.eval (z ^ 2) ∧
    step2 air proof d c = .ok true

/-- For some composition halves of degree below the trace length `n` the out-of-domain check accepts at `3n`
points or more. -/
def OodAcceptsMany [DecidableEq F] (air : Air F Ch) (d : Domain F) (polys : List F[X]) (ch : Ch)
    (boundaryCoeffs transitionCoeffs : List (F × F)) : Prop :=
  ∃ (even odd : F[X]) (S : Finset F), even.degree < air.traceLength ∧ odd.degree < air.traceLength ∧
    3 * air.traceLength ≤ S.card ∧
    ∀ z ∈ S, OodAccepts air d polys even odd ch boundaryCoeffs transitionCoeffs z

end Verif.Spec
