import Verif.Spec.Replace
import Verif.Spec.Wrap
/-! # Specification: renaming what follows the `::` in the title of a tree -/

namespace Bulloak.Spec
open Bulloak
variable [Ucd]

/-- `f` is a test whose name starts with `test_` and the capitalised `p`; `f'` is the same, but its name has `p'` there. -/
structure NamedAnew (p p' : Str) (f f' : HFn) : Prop where
  test : f.ty = .function
  names : ∃ rest, f.identifier = c!"test_" ++ capital p ++ rest ∧ f'.identifier = c!"test_" ++ capital p' ++ rest
  same : SameCode f { f' with identifier := f.identifier }

/-- `f` is a test of the tree with the text `b`, in a file with several trees about the contract `n`. -/
def TestOf (order : HashOrder) (skip : Bool) (n b : Str) (f : HFn) : Prop := f.ty = .function ∧ FromTree order skip n b f

/-- No test of the tree `b` has the name of a test of one of the trees `bs`. -/
def Apart (order : HashOrder) (skip : Bool) (n b : Str) (bs : List Str) : Prop :=
  ∀ f g, TestOf order skip n b f → (∃ c ∈ bs, TestOf order skip n c g) → g.identifier ≠ f.identifier

/-- The trees `a` and `a'` have the same branches, and the titles `<n>::<p>` and `<n>::<p'>`. -/
structure PartRenamed (n p p' : Str) (a a' : Ast) : Prop where
  old : Splits (titleOf a) n p
  new : Splits (titleOf a') n p'
  branches : Resited (kids a) (kids a')

end Bulloak.Spec
