import Verif.Spec.Rework
/-! # Specification: moving code in the Solidity file -/

namespace Bulloak.Spec
open Bulloak

/-- The contract `s'` has the name of `s`, and the functions of the tree that `s` has, each as often, but possibly in another order.  Anything else may be different. -/
structure Moved (fns : List HFn) (s s' : SolContract) : Prop where
  name : s'.name = s.name
  ours : (Ours fns s'.parts).Perm (Ours fns s.parts)

end Bulloak.Spec
