import Verif.Spec.Edit3
/-! # Specification: trees that cannot be told apart in the generated code -/

namespace Bulloak.Spec
open Bulloak

section
variable [Ucd]

/-- The actions among the branches, each with its descriptions. -/
def actionsIn (ks : List Ast) : List (Str × List Str) := (ks.filter Ast.isAction).map (fun a => (titleOf a, (kids a).map titleOf))

/-- `Lookalike l l'`: the conditions of `l` and `l'` are the same in the same order, at any depth: their titles are the same up to capitals at the start of words and up to the
places of blanks, and their actions and descriptions are the same in the same order. Where the actions stand among the conditions is not compared. -/
inductive Lookalike : List Ast → List Ast → Prop where
  | done : Lookalike [] []
  | left {a l l'} : a.isCondition = false → Lookalike l l' → Lookalike (a :: l) l'
  | right {a l l'} : a.isCondition = false → Lookalike l l' → Lookalike l (a :: l')
  | condition {s s' t t' ks ks' l l'} : camel t = camel t' → actionsIn ks = actionsIn ks' → Lookalike ks ks' → Lookalike l l' →
      Lookalike (.condition s t ks :: l) (.condition s' t' ks' :: l')

/-- The name of the test of an action directly below the root. -/
def topName (t : Str) : Str := c!"test_" ++ sanitize (glue ((splitWs t).drop 1))

/-- The same for the branches of the root, whose actions have tests of their own. An action can be mistaken for a condition with just this action below it, if the names agree. -/
inductive LookalikeTop : List Ast → List Ast → Prop where
  | done : LookalikeTop [] []
  | action {s s' t ds ds' l l'} : ds.map titleOf = ds'.map titleOf → LookalikeTop l l' → LookalikeTop (.action s t ds :: l) (.action s' t ds' :: l')
  | condition {s s' t t' ks ks' l l'} : camel t = camel t' → actionsIn ks = actionsIn ks' → Lookalike ks ks' → LookalikeTop l l' →
      LookalikeTop (.condition s t ks :: l) (.condition s' t' ks' :: l')
  | mixed {s s' t t' ds ks l l'} : topName t = testName (.condition s' t' ks) → [(t, ds.map titleOf)] = actionsIn ks → ks.any Ast.isCondition = false → LookalikeTop l l' →
      LookalikeTop (.action s t ds :: l) (.condition s' t' ks :: l')
  | mixed' {s s' t t' ds ks l l'} : topName t = testName (.condition s' t' ks) → [(t, ds.map titleOf)] = actionsIn ks → ks.any Ast.isCondition = false → LookalikeTop l l' →
      LookalikeTop (.condition s' t' ks :: l) (.action s t ds :: l')

end

/-- What of a function is written to the Solidity file. -/
def codeOf (f : HFn) : FnTy × Str × List Str × List BodyItem := (f.ty, f.identifier, f.modifiers.getD [], f.children.getD [])

end Bulloak.Spec
