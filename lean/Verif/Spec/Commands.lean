import Verif.Model.Runner

/-!
# How a program is to be run, in plain terms

Used for C58-C61, C63 and C72. Nothing here depends on how the commands are
implemented.
-/

namespace Verif.Spec
open Runner

/-- The path contains `.casm` somewhere. -/
def IsCasm (path : String) : Prop := ∃ a b : String, path = a ++ ".casm" ++ b

/-- The layout of a version: Cairo 0 programs run with the small layout, the one with the builtins, and
compiled Cairo 1 contracts with the plain one. -/
inductive LayoutFor : CairoVersion → CairoLayout → Prop
  | v0 : LayoutFor .v0 .small
  | v1 : LayoutFor .v1 .plain

/-- How the program in a file is to be run: compiled Cairo 1 contracts are recognised by their name, and
everything else is Cairo 0. -/
inductive RunAs (path : String) : CairoVersion → CairoLayout → Prop
  | casm {layout} : IsCasm path → LayoutFor .v1 layout → RunAs path .v1 layout
  | cairo0 {layout} : ¬ IsCasm path → LayoutFor .v0 layout → RunAs path .v0 layout

/-- The layouts with the names under which cairo-vm knows them. -/
def layoutNames : List (CairoLayout × String) :=
  [(.plain, "plain"), (.small, "small"), (.dex, "dex"), (.recursive, "recursive"), (.starknet, "starknet"),
    (.starknetWithKeccak, "starknet_with_keccak"), (.recursiveLargeOutput, "recursive_large_output"),
    (.allCairo, "all_cairo"), (.allSolidity, "all_solidity"), (.dynamic, "dynamic")]

end Verif.Spec
