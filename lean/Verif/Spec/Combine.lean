import Verif.Spec.Hir
import Verif.Spec.Split
/-! # Specification: combining several trees into one contract -/

namespace Bulloak.Spec
open Bulloak

/-- The root title `t` reads `<contract>::<function>` (split at the first `::`). -/
def Splits (t contract function : Str) : Prop :=
  t = contract ++ c!"::" ++ function ∧ ¬ c!"::" <:+: contract ++ c!":"

/-- The title names the contract `n`. -/
def Names (n t : Str) : Prop := ¬ Blank n ∧ ∃ f, Splits t n f

/-- What is wrong with the title `t` that follows `k` titles naming the contract `n`. -/
inductive BadTitle (n : Str) (k : Nat) (t : Str) : CombineError → Prop where
  | noSeparator : ¬ c!"::" <:+: t → BadTitle n k t (.separatorMissing (k + 1))
  | noName {m f} : Splits t m f → Blank m → BadTitle n k t (.contractNameMissing (k + 1))
  | otherName {m f} : 0 < k → Splits t m f → ¬ Blank m → m ≠ n → BadTitle n k t (.contractNameMismatch m n)

/-- The name without leading `test_`s. -/
def dropTests : Str → Str
  | 't' :: 'e' :: 's' :: 't' :: '_' :: r => dropTests r
  | s => s

/-- The functions whose name does not occur earlier in the list. -/
def firstOnly : List HFn → List HFn
  | [] => []
  | f :: fs => f :: (firstOnly fs).filter (fun g => g.identifier ≠ f.identifier)

/-- The function with its name prefixed by the capitalised function part of the root; modifiers are
unchanged. -/
def prefixFn [U : Ucd] (part : Str) (f : HFn) : HFn :=
  match f.ty with
  | .function => { f with identifier := c!"test_" ++ capital part ++ dropTests f.identifier }
  | .modifier => f

/-- The functions of several trees with the function parts of their roots, in order. -/
def prefixedFns [U : Ucd] (skip : Bool) (trees : List (Ast × Str)) : List HFn :=
  trees.flatMap (fun p => (expected skip (kids p.1)).map (prefixFn p.2))

end Bulloak.Spec
