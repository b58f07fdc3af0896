import Verif.Spec.ReadOff
import Verif.Spec.Keep
/-! # Specification: the code of a contract that is not in the tree -/

namespace Bulloak.Spec
open Bulloak

/-- The parts of the contract that are no functions of the tree, from top to bottom, with their text. -/
def OtherCode (fns : List HFn) (L : Layout) : List Seg := (L.segs.map Prod.fst).filter (fun s => decide (Foreign fns s))

/-- The functions of the tree that are in the contract already, from top to bottom, with their text. -/
def OwnCode (fns : List HFn) (L : Layout) : List Seg := (L.segs.map Prod.fst).filter (fun s => decide (∃ f ∈ fns, s.Is f))

end Bulloak.Spec
