import Verif.Spec.Alike
/-! # Specification: rewording actions -/

namespace Bulloak.Spec
open Bulloak

section
variable [Ucd]

/-- Whether there is an action among siblings and, if so, whether the first one reads `it should revert`. -/
def leadsWith (l : List Ast) : Option Bool := ((l.filter Ast.isAction).head?).map revertAction

/-- `Reworded l l'`: the same conditions below a condition; actions may be reworded, added, removed and moved, but a condition with actions
keeps one and the first one keeps reading, or not reading, `it should revert`. -/
inductive Reworded : List Ast → List Ast → Prop where
  | done : Reworded [] []
  | left {a l l'} : a.isCondition = false → Reworded l l' → Reworded (a :: l) l'
  | right {a l l'} : a.isCondition = false → Reworded l l' → Reworded l (a :: l')
  | condition {s s' t ks ks' l l'} : leadsWith ks = leadsWith ks' → Reworded ks ks' → Reworded l l' →
      Reworded (.condition s t ks :: l) (.condition s' t ks' :: l')

/-- The same for the branches of the root, whose actions keep the names of their tests. -/
inductive RewordedTop : List Ast → List Ast → Prop where
  | done : RewordedTop [] []
  | action {s s' t t' ds ds' l l'} : topName t = topName t' → RewordedTop l l' → RewordedTop (.action s t ds :: l) (.action s' t' ds' :: l')
  | condition {s s' t ks ks' l l'} : leadsWith ks = leadsWith ks' → Reworded ks ks' → RewordedTop l l' →
      RewordedTop (.condition s t ks :: l) (.condition s' t ks' :: l')

/-- Two accepted texts with the same trees up to the wording of actions. -/
def RewordedText (order : HashOrder) (text text' : Str) : Prop :=
  ∃ asts asts', parse order text = .ok asts ∧ parse order text' = .ok asts' ∧
    Each (fun a a' => titleOf a = titleOf a' ∧ RewordedTop (kids a) (kids a')) asts asts'

end

/-- A function of the same kind, name and modifiers whose body differs only in comments. -/
structure BodyCommentsOnly (f f' : HFn) : Prop where
  name : nameOf f' = nameOf f
  modifiers : f'.modifiers = f.modifiers
  code : (f'.children.getD []).filter (fun b => commentText b = none) = (f.children.getD []).filter (fun b => commentText b = none)

/-- The same violation; a missing function may have another place and body in the tree. -/
inductive Echo : Violation → Violation → Prop where
  | same {v} : Echo v v
  | missing {f f' i file line line'} : nameOf f' = nameOf f →
      Echo ⟨.matchingFunctionMissing f i, .code file line⟩ ⟨.matchingFunctionMissing f' i, .code file line'⟩

/-- Two checks crash both or report the same. -/
inductive EchoReport : Res Empty (List Violation) → Res Empty (List Violation) → Prop where
  | ok {vs vs'} : Each Echo vs vs' → EchoReport (.ok vs) (.ok vs')
  | panic : EchoReport .panic .panic

end Bulloak.Spec
