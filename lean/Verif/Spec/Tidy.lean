import Verif.Spec.Result
import Verif.Spec.Declared
import Verif.Spec.Cli
import Verif.Lemmas.Lines
/-! # Specification: contracts `check --fix` can bring into the shape of the tree -/

namespace Bulloak.Spec
open Bulloak

/-- The functions of the contract are in the order of the tree; or it is possible to sort them: no three of them are reversed, and each is declared once in the (ASCII) file. -/
def Sortable (fns : List HFn) (L L1 : Layout) : Prop :=
  InOrder fns L.parts ∨ (NoReversedTriple fns L.parts ∧ Ascii L1.text ∧ (∀ f ∈ fns, Ascii (emitFunction f)) ∧ DeclaredOnce fns L1)

/-- The parts are the functions of the tree, one after the other, and nothing else. -/
def ExactlyTree (fns : List HFn) (parts : List SolPart) : Prop := parts.map seen = fns.map (fun f => some (some f.identifier, solTy f.ty))

end Bulloak.Spec
