import Verif.Spec.Run

/-!
# A concrete run, used beside the theorems

The run of `tests`' `simple_program` (src/cairo/execution_trace.rs:661-675):
`[ap] = 3; ap++`, `assert [ap-1] = 3`, `ret`, loaded at address 1.
-/

namespace Verif.Examples
open Verif.Spec

/-- Memory file of the run. -/
def mem : CairoMemory :=
  [(1, 0x480680017fff8000), (2, 3), (3, 0x400680017fff7fff), (4, 3), (5, 0x208b7fff7fff7ffe),
   (6, 9), (7, 9), (8, 3)]

/-- The same memory as a total function. -/
def m (x : FE) : FE := (mem.get? x.val).getD 0

/-- Register trace of the run. -/
def states : List RegistersState :=
  [{ pc := 1, ap := 8, fp := 8 }, { pc := 3, ap := 9, fp := 8 }, { pc := 5, ap := 9, fp := 8 }]

theorem holds : Holds mem m := by
  intro a v h
  have hm := HMap.mem_of_get?_eq_some h
  have ha : a < 9 := by
    simp only [mem, List.mem_cons, Prod.mk.injEq, List.not_mem_nil, or_false] at hm
    omega
  refine ⟨by omega, ?_⟩
  have hval : ((a : FE)).val = a := ZMod.val_cast_of_lt (lt_trans ha (by decide))
  unfold m
  rw [hval, h]; rfl

end Verif.Examples
