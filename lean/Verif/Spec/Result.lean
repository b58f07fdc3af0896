import Verif.Spec.Restore
/-! # Specification: the contract `check --fix` ends with -/

namespace Bulloak.Spec
open Bulloak

/-- One part per function of the tree, in the order of the tree: the one that is in the contract already, or the generated one if there is none. -/
def Result (fns : List HFn) (L : Layout) (ss : List Seg) : Prop :=
  Each (fun f s => (s ∈ L.segs.map Prod.fst ∧ s.Is f) ∨ (¬ Present L.parts f ∧ s = newSeg f)) fns ss

/-- `L` has the parts of `L0`, except for some that are as generated, and were deleted. -/
def DroppedStubs (fns : List HFn) (L0 L : Layout) : Prop :=
  (L.segs.map Prod.fst).Sublist (L0.segs.map Prod.fst) ∧
  ∀ s ∈ L0.segs.map Prod.fst, s ∈ L.segs.map Prod.fst ∨ ∃ f ∈ fns, s = newSeg f

end Bulloak.Spec
