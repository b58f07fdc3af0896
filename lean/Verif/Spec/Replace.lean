import Verif.Spec.Combine
import Verif.Model.Syntax
/-! # Specification: functions of one of several trees -/

namespace Bulloak.Spec
open Bulloak
variable [Ucd]

/-- `f` is a function of the tree with the text `b`, in a file with several trees about the contract `n`. -/
def FromTree (order : HashOrder) (skip : Bool) (n b : Str) (f : HFn) : Prop :=
  ∃ ast part, parseOne order b = .ok ast ∧ Splits (titleOf ast) n part ∧ f ∈ prefixedFns skip [(ast, part)]

end Bulloak.Spec
