import Verif.Spec.Fix
import Verif.Spec.Hir
/-! # Specification: editing trees -/

namespace Bulloak.Spec
open Bulloak

/-- The title of the first action among siblings. -/
def firstAction (l : List Ast) : Option Str := ((l.filter Ast.isAction).head?).map titleOf

/-- `Extended l l'`: the branches `l'` are the branches `l` with further branches added, at any depth, and further descriptions.  What is
added below a condition does not come in front of its first action.  Places in the file do not matter. -/
inductive Extended : List Ast → List Ast → Prop where
  | done : Extended [] []
  | add {n l l'} : Extended l l' → Extended l (n :: l')
  | action {s s' t ds ds' l l'} : (ds.map titleOf).Sublist (ds'.map titleOf) → Extended l l' →
      Extended (.action s t ds :: l) (.action s' t ds' :: l')
  | condition {s s' t ks ks' l l'} : Extended ks ks' → (firstAction ks = none ∨ firstAction ks' = firstAction ks) → Extended l l' →
      Extended (.condition s t ks :: l) (.condition s' t ks' :: l')

/-- Kind and name of a function. -/
def nameOf (f : HFn) : FnTy × Str := (f.ty, f.identifier)

/-- `f'` is `f` with further modifiers and comments. -/
structure Richer (f f' : HFn) : Prop where
  name : nameOf f' = nameOf f
  modifiers : (f.modifiers.getD []).Sublist (f'.modifiers.getD [])
  comments : (comments f).Sublist (comments f')

/-- `Within R l l'`: some elements of `l'` are related to those of `l`, in order. -/
inductive Within {α : Type} (R : α → α → Prop) : List α → List α → Prop where
  | done : Within R [] []
  | add {b as bs} : Within R as bs → Within R as (b :: bs)
  | keep {a b as bs} : R a b → Within R as bs → Within R (a :: as) (b :: bs)

end Bulloak.Spec
