import Verif.Spec.Result
import Verif.Spec.Sol
import Verif.Spec.Split
/-! # Specification: a contract with nothing but blanks around its parts -/

namespace Bulloak.Spec
open Bulloak

/-- Only white space before, between and behind the parts of the contract. -/
def BlankGaps (L : Layout) : Prop := Blank L.lead ∧ ∀ p ∈ L.segs, Blank p.2

end Bulloak.Spec
