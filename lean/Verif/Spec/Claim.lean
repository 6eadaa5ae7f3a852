import Verif.Spec.Run
import Mathlib.Order.Bounds.Basic

/-!
# What the public inputs of a run are expected to say
-/

namespace Verif.Spec

/-- The number is one of the three offsets of an instruction executed in the run. -/
def IsRunOffset (m : FE → FE) (states : List RegistersState) (o : Int) : Prop :=
  ∃ t ∈ states, o = (instrAt m (regsOf t)).offDst ∨ o = (instrAt m (regsOf t)).offOp0 ∨
    o = (instrAt m (regsOf t)).offOp1

/-- The public inputs describe the run: its first and last registers, its length, its segments, the least
and the greatest offset (stored with the bias `2^15`), and as public memory exactly the cells of the program
and of the output segment, each once. -/
structure DescribesRun (pi : PublicInputs) (mem : CairoMemory) (m : FE → FE) (states : List RegistersState)
    (programSize : Nat) (segments : MemorySegmentMap) : Prop where
  first : ∃ t, states.head? = some t ∧ pi.pcInit = (t.pc : FE) ∧ pi.apInit = (t.ap : FE) ∧
    pi.fpInit = (t.fp : FE)
  last : ∃ t, states.getLast? = some t ∧ pi.pcFinal = (t.pc : FE) ∧ pi.apFinal = (t.ap : FE)
  steps : pi.numSteps = states.length
  segs : pi.memorySegments = segments
  least : ∃ lo, pi.rangeCheckMin = some lo ∧ IsLeast {o | IsRunOffset m states o} ((lo.toNat : Int) - 2 ^ 15)
  greatest : ∃ hi, pi.rangeCheckMax = some hi ∧
    IsGreatest {o | IsRunOffset m states o} ((hi.toNat : Int) - 2 ^ 15)
  cells : ∀ a v, (a, v) ∈ pi.publicMemory ↔
    ∃ n : Nat, a = (n : FE) ∧ mem.get? n = some v ∧ IsPublic programSize segments n
  distinct : (pi.publicMemory.map Prod.fst).Nodup

end Verif.Spec
