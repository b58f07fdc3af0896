import Verif.Spec.Edit
/-! # Specification: rearranging trees and retitling conditions -/

namespace Bulloak.Spec
open Bulloak

/-- `Rearranged l l'`: the branches `l'` are the branches `l` in another order, at any depth, but every condition keeps its first action. -/
inductive Rearranged : List Ast → List Ast → Prop where
  | done : Rearranged [] []
  | action {s s' t ds ds' l l'} : (ds.map titleOf).Perm (ds'.map titleOf) → Rearranged l l' →
      Rearranged (.action s t ds :: l) (.action s' t ds' :: l')
  | condition {s s' t ks ks' l l'} : Rearranged ks ks' → firstAction ks' = firstAction ks → Rearranged l l' →
      Rearranged (.condition s t ks :: l) (.condition s' t ks' :: l')
  | swap {a b l} : Rearranged (a :: b :: l) (b :: a :: l)
  | trans {l l' l''} : Rearranged l l' → Rearranged l' l'' → Rearranged l l''

/-- `PermBy R l l'`: `l'` is `l` in another order, each element replaced by a related one. -/
inductive PermBy {α : Type} (R : α → α → Prop) : List α → List α → Prop where
  | nil : PermBy R [] []
  | cons {a b l l'} : R a b → PermBy R l l' → PermBy R (a :: l) (b :: l')
  | swap {a b l} : PermBy R (a :: b :: l) (b :: a :: l)
  | trans {l l' l''} : PermBy R l l' → PermBy R l' l'' → PermBy R l l''

/-- Functions of the same kind and name with the same modifiers, the same comments in some order and the same other statements. -/
structure SameUpToOrder (f g : HFn) : Prop where
  name : nameOf g = nameOf f
  modifiers : g.modifiers = f.modifiers
  body : (g.children.getD []).Perm (f.children.getD [])

/-- `Resited l l'`: the same branches, at other places of the file. -/
inductive Resited : List Ast → List Ast → Prop where
  | done : Resited [] []
  | action {s s' t ds ds' l l'} : ds'.map titleOf = ds.map titleOf → Resited l l' → Resited (.action s t ds :: l) (.action s' t ds' :: l')
  | condition {s s' t ks ks' l l'} : Resited ks ks' → Resited l l' → Resited (.condition s t ks :: l) (.condition s' t ks' :: l')

/-- `Retitled t t' k l l'`: one condition of `l` with the title `t` and the branches `k`, at any depth, has the title `t'` in `l'`; everything else is the same. -/
inductive Retitled (t t' : Str) (k : List Ast) : List Ast → List Ast → Prop where
  | here {s s' k' l l'} : Resited k k' → Resited l l' → Retitled t t' k (.condition s t k :: l) (.condition s' t' k' :: l')
  | inside {s s' u ks ks' l l'} : Retitled t t' k ks ks' → Resited l l' → Retitled t t' k (.condition s u ks :: l) (.condition s' u ks' :: l')
  | later {a a' l l'} : Resited [a] [a'] → Retitled t t' k l l' → Retitled t t' k (a :: l) (a' :: l')

section
variable [Ucd]

/-- The kinds and names of the functions of a condition with the title `t` and the branches `k`. -/
def ownNames (t : Str) (k : List Ast) : List (FnTy × Str) :=
  (if k.any Ast.isCondition then [(.modifier, camel t)] else []) ++
    (if firstAction k = none then [] else [(.function, testName (.condition Span.default t k))])

/-- A function of the same kind with the same body; the modifier of the condition `t` may be replaced by that of `t'`. -/
structure Retouched (t t' : Str) (f f' : HFn) : Prop where
  kind : f'.ty = f.ty
  body : f'.children = f.children
  modifiers : Each (fun m m' => m' = m ∨ (m = camel t ∧ m' = camel t')) (f.modifiers.getD []) (f'.modifiers.getD [])

end
end Bulloak.Spec
