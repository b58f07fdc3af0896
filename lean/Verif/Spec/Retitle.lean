import Verif.Spec.Reword
import Verif.Spec.Combine
/-! # Specification: renaming the roots of trees -/

namespace Bulloak.Spec
open Bulloak

/-- `RootsRenamed n n' l l'`: in the trees `l` the contract is called `n`, in `l'` it is called `n'`; otherwise they differ at most in the wording of actions.
The contract is called by the title of the only root, or by what precedes the `::` in the titles of several roots. -/
inductive RootsRenamed [Ucd] (n n' : Str) : List Ast → List Ast → Prop where
  | one {a a'} : titleOf a = n → titleOf a' = n' → RewordedTop (kids a) (kids a') → RootsRenamed n n' [a] [a']
  | many {l l'} : 2 ≤ l.length → ¬ Blank n → ¬ Blank n' →
      Each (fun a a' => (∃ f, Splits (titleOf a) n f ∧ Splits (titleOf a') n' f) ∧ RewordedTop (kids a) (kids a')) l l' → RootsRenamed n n' l l'

end Bulloak.Spec
