import Verif.Spec.Fix
import Verif.Spec.Cli
/-! # Specification: deleting code from the Solidity file -/

namespace Bulloak.Spec
open Bulloak

/-- No function of the tree occurs twice in the contract. -/
def NoTwice (fns : List HFn) (parts : List SolPart) : Prop :=
  ∀ f ∈ fns, ∀ (i j : Nat) (p q : SolPart), parts[i]? = some p → parts[j]? = some q → Matches f p → Matches f q → i = j

/-- The contract `s'` has the name of `s`, and some of its parts in the same order, possibly at other positions of the file. -/
structure CutFrom (s s' : SolContract) : Prop where
  name : s'.name = s.name
  parts : (s'.parts.map seen).Sublist (s.parts.map seen)

end Bulloak.Spec
