import Verif.Examples.Simple
import Verif.Model.Air

/-!
# The traces of the run of `simple_program`
-/

namespace Verif.Examples
open Verif.ExecTrace Verif.CairoAir

/-- The public inputs of the run. -/
def pi0 : PublicInputs :=
  (fromRegsAndMem states mem 5 []).getD ⟨0, 0, 0, 0, 0, none, none, [], [], 0⟩

theorem pi0_eq : fromRegsAndMem states mem 5 [] = .ok pi0 :=
  Outcome.eq_ok_getD _ (by decide +kernel)

/-- The main trace of the run and the updated public inputs. -/
def main0 : List (List FE) × PublicInputs := (buildMainTrace states mem pi0).getD ([], pi0)

theorem main0_eq : buildMainTrace states mem pi0 = .ok main0 :=
  Outcome.eq_ok_getD _ (by decide +kernel)

theorem main0_length : main0.1.length = 8 := by decide +kernel

theorem main0_width : ∀ r ∈ main0.1, r.length = 34 := by decide +kernel

/-- Some challenges. -/
def ch0 : RAPChallenges FE := ⟨2, 300, 5⟩

/-- The auxiliary trace of the run. -/
def aux0 : List (List FE) := (buildAuxiliaryTrace main0.2 main0.1 ch0).getD []

theorem aux0_eq : buildAuxiliaryTrace main0.2 main0.1 ch0 = .ok aux0 :=
  Outcome.eq_ok_getD _ (by decide +kernel)

theorem main0_offsets : ∀ x ∈ getCols main0.1 [OFF_DST, OFF_OP0, OFF_OP1], x.val < 2 ^ 16 := by
  have h : (getCols main0.1 [OFF_DST, OFF_OP0, OFF_OP1]).all (fun x => decide (x.val < 65536)) = true := by
    decide +kernel
  intro x hx
  simpa using List.all_eq_true.1 h x hx

end Verif.Examples
