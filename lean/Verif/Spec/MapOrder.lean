import Verif.Model.PublicInputs

/-!
# Public inputs that differ at most in the iteration order of their hash maps
-/

namespace Verif.Spec

/-- The same numbers, and maps with the same content: what two Rust values hold that compare equal, whatever
order their hash maps iterate in. -/
structure SameInputs (p q : PublicInputs) : Prop where
  pcInit : p.pcInit = q.pcInit
  apInit : p.apInit = q.apInit
  fpInit : p.fpInit = q.fpInit
  pcFinal : p.pcFinal = q.pcFinal
  apFinal : p.apFinal = q.apFinal
  rangeCheckMin : p.rangeCheckMin = q.rangeCheckMin
  rangeCheckMax : p.rangeCheckMax = q.rangeCheckMax
  numSteps : p.numSteps = q.numSteps
  memorySegments : p.memorySegments.Same q.memorySegments
  publicMemory : p.publicMemory.Same q.publicMemory

end Verif.Spec
