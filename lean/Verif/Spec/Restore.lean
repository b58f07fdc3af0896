import Verif.Spec.Fix
/-! # Specification: a contract with its parts moved -/

namespace Bulloak.Spec
open Bulloak

/-- `L` has the parts of `L0`, each with the same text, in whatever order; the rest of the file may be different. -/
def Shuffle (L0 L : Layout) : Prop := (L.segs.map Prod.fst).Perm (L0.segs.map Prod.fst)

end Bulloak.Spec
