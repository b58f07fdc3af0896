import Verif.Spec.ReadOff
/-! # Specification: two trees for one contract -/

namespace Bulloak.Spec
open Bulloak

/-- The functions that both trees have come in the same order in both. -/
def SameOrder (fns fns' : List HFn) : Prop :=
  (fns.map asSeen).filter (fun x => decide (x ∈ fns'.map asSeen)) = (fns'.map asSeen).filter (fun x => decide (x ∈ fns.map asSeen))

end Bulloak.Spec
