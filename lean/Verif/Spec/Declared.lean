import Verif.Spec.Fix
import Verif.Spec.Hir
/-! # Specification: files in which every function is declared once -/

namespace Bulloak.Spec
open Bulloak

/-- How the declaration of a function begins. -/
def declOf (f : HFn) : Str :=
  (match f.ty with
    | .function => c!"function "
    | .modifier => c!"modifier ") ++ (f.identifier ++ c!"(")

/-- Every function of the tree is declared once in the file if the contract has it, else not at all, not even in comments, strings or other contracts;
the contract's functions begin with their declaration, and no declaration is quoted in the tree. -/
structure DeclaredOnce (fns : List HFn) (L : Layout) : Prop where
  starts : ∀ s ∈ L.segs.map Prod.fst, ∀ f ∈ fns, s.Is f → declOf f <+: s.text
  once : ∀ f ∈ fns, ∀ x y x' y', L.text = x ++ (declOf f ++ y) → L.text = x' ++ (declOf f ++ y') → x = x'
  missing : ∀ f ∈ fns, ¬ Present L.parts f → ¬ declOf f <:+: L.text
  quiet : ∀ f ∈ fns, ∀ g ∈ fns, ∀ t, .comment t ∈ g.children.getD [] → ¬ declOf f <:+: t

end Bulloak.Spec
