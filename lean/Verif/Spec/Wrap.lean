import Verif.Spec.Edit3
import Verif.Spec.Alike
/-! # Specification: putting branches below a new condition -/

namespace Bulloak.Spec
open Bulloak

/-- `Wrapped t B path l l'`: in the branches `l` there are neighbouring conditions `B`, below conditions with the titles `path`; in `l'` they are the branches of a new condition
with the title `t`, which takes their place.  Everything else is the same. -/
inductive Wrapped (t : Str) (B : List Ast) : List Str → List Ast → List Ast → Prop where
  | here {s B' l l'} : B ≠ [] → (∀ b ∈ B, b.isCondition = true) → Resited B B' → Resited l l' → Wrapped t B [] (B ++ l) (.condition s t B' :: l')
  | inside {s s' u p ks ks' l l'} : Wrapped t B p ks ks' → Resited l l' → Wrapped t B (u :: p) (.condition s u ks :: l) (.condition s' u ks' :: l')
  | later {a a' p l l'} : Resited [a] [a'] → Wrapped t B p l l' → Wrapped t B p (a :: l) (a' :: l')

/-- `f'` is the function `f`; if it is a test, the modifiers `old` it starts with are replaced by `new`. -/
structure Reguarded (old new : List Str) (f f' : HFn) : Prop where
  name : nameOf f' = nameOf f
  body : f'.children = f.children
  modifier : f.ty = .modifier → f'.modifiers = f.modifiers
  test : f.ty = .function → ∃ inner, f.modifiers.getD [] = old ++ inner ∧ f'.modifiers.getD [] = new ++ inner

/-- The same kind, name, modifiers and body. -/
def SameCode (f f' : HFn) : Prop := codeOf f' = codeOf f

/-- The kinds and names of the functions of conditions and all that is below them. -/
def namesIn [Ucd] (B : List Ast) : List (FnTy × Str) := (inScopeAll [] B).flatMap (fun p => ownNames (titleOf p.2) (kids p.2))

end Bulloak.Spec
