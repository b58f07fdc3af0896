import Verif.Spec.Cut
/-! # Specification: any work on the Solidity file that brings in no function of the tree -/

namespace Bulloak.Spec
open Bulloak

/-- The functions of the tree in a contract, in the order of the file: what they are and how they are called. -/
def Ours (fns : List HFn) (parts : List SolPart) : List (Option (Option Str × SolFnTy)) :=
  (parts.filter (fun p => decide (∃ f ∈ fns, Matches f p))).map seen

/-- The contract `s'` has the name of `s`, and some of the functions of the tree that `s` has, in the same order.  Anything else may be different: functions may be renamed, get other bodies, or
be deleted, and other code may come, go and move. -/
structure Reworked (fns : List HFn) (s s' : SolContract) : Prop where
  name : s'.name = s.name
  ours : (Ours fns s'.parts).Sublist (Ours fns s.parts)

end Bulloak.Spec
