import Verif.Spec.Rework
/-! # Specification: the functions of the tree, as they are read off a Solidity file -/

namespace Bulloak.Spec
open Bulloak

/-- How a function of the tree is seen in a contract: a function or a modifier with the name of the tree. -/
def asSeen (f : HFn) : Option (Option Str × SolFnTy) :=
  some (some f.identifier, match f.ty with
    | .function => .function
    | .modifier => .modifier)

end Bulloak.Spec
