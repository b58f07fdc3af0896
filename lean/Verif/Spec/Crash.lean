import Verif.Spec.Keep
/-! # Specification: which functions `check --fix` moves -/

namespace Bulloak.Spec
open Bulloak

/-- `check --fix` moves the function with index `i` of the tree: it is out of order, or it is missing (and reported) and comes, with nothing but
such functions in between, behind one that is out of order. -/
def ToMove (skip : Bool) (fns : List HFn) (L : Layout) (i : Nat) : Prop :=
  ∃ i0, i0 ≤ i ∧ Misplaced fns L.parts i0 ∧ ∀ m, i0 < m → m ≤ i → ∃ f, fns[m]? = some f ∧ Reported skip L f

/-- The number of parts of the contract once the missing functions are filled in. -/
def filledCount (skip : Bool) (fns : List HFn) (L : Layout) : Nat :=
  L.segs.length + (fns.filter (fun f => decide (Reported skip L f))).length

end Bulloak.Spec
