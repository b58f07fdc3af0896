import Verif.Spec.Declared
/-! # Specification: contracts with parts that are not in the tree -/

namespace Bulloak.Spec
open Bulloak

/-- The contract's functions have names, and those named like a function of the tree are of its kind.
Other parts may be anything. -/
structure Mixed (fns : List HFn) (L : Layout) : Prop where
  named : ∀ ty t, Seg.fn ty none t ∉ L.segs.map Prod.fst
  own : ∀ ty m t, Seg.fn ty (some m) t ∈ L.segs.map Prod.fst → ∀ f ∈ fns, f.identifier = m → ∃ g ∈ fns, (Seg.fn ty (some m) t).Is g

instance (f : HFn) (s : Seg) : Decidable (s.Is f) := by
  cases s <;> unfold Seg.Is <;> exact inferInstance

/-- The part is not a function of the tree. -/
def Foreign (fns : List HFn) (s : Seg) : Prop := ∀ f ∈ fns, ¬ s.Is f

instance (fns : List HFn) (s : Seg) : Decidable (Foreign fns s) := inferInstanceAs (Decidable (∀ f ∈ fns, ¬ s.Is f))

/-- A function that is not misplaced has a part that is not in the tree somewhere in front of it, and is followed in the tree by a
misplaced one. -/
def Blocked (fns : List HFn) (parts : List SolPart) : Prop :=
  ∃ i h f a z p, i < h ∧ Misplaced fns parts h ∧ ¬ Misplaced fns parts i ∧ fns[i]? = some f ∧ At parts f a ∧
    z < a ∧ parts[z]? = some p ∧ ∀ f ∈ fns, ¬ Matches f p

/-- The texts around the parts. -/
def Layout.gaps (L : Layout) : List Str := L.lead :: L.segs.map Prod.snd

end Bulloak.Spec
