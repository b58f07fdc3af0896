import Verif.Spec.Semantics
import Verif.Model.Hir
/-! # Specification: the functions a tree stands for -/

namespace Bulloak.Spec
open Bulloak

/-- `Words s ws`: the words of `s` (maximal runs of characters that are not white space) are `ws`. -/
inductive Words : Str → List Str → Prop where
  | nil : Words [] []
  | skip {c s ws} : isWs c = true → Words s ws → Words (c :: s) ws
  | word {w s ws} : w ≠ [] → (∀ c ∈ w, isWs c = false) → (s = [] ∨ ∃ c r, s = c :: r ∧ isWs c = true) →
      Words s ws → Words (w ++ s) (w :: ws)

mutual
/-- The conditions of a node in pre-order, each with the conditions enclosing it, outermost first. -/
def inScope (encl : List Ast) : Ast → List (List Ast × Ast)
  | .condition s t cs => (encl, .condition s t cs) :: inScopeAll (encl ++ [.condition s t cs]) cs
  | _ => []
/-- The conditions of siblings. -/
def inScopeAll (encl : List Ast) : List Ast → List (List Ast × Ast)
  | [] => []
  | a :: as => inScope encl a ++ inScopeAll encl as
end

/-- `Path ks p a`: walking down from the siblings `ks` through the conditions `p` one reaches the
condition `a`. -/
inductive Path : List Ast → List Ast → Ast → Prop where
  | here {ks a} : a ∈ ks → a.isCondition = true → Path ks [] a
  | down {ks c p a} : c ∈ ks → c.isCondition = true → Path (kids c) p a → Path ks (c :: p) a

/-- The node has a condition among its children. -/
def hasNested (a : Ast) : Bool := (kids a).any Ast.isCondition

/-- The actions directly below a node. -/
def actionsOf (a : Ast) : List Ast := (kids a).filter Ast.isAction

/-- The comment lines of an action: its title and its descriptions. -/
def commentLines (a : Ast) : List Str := titleOf a :: (kids a).map titleOf

/-- The comment lines of a condition: those of its direct actions. -/
def commentsOf (c : Ast) : List Str := (actionsOf c).flatMap commentLines

/-- The body of a test. -/
def bodyOf (skip : Bool) (comments : List Str) : List BodyItem :=
  comments.map BodyItem.comment ++ if skip then [.vmSkip] else []

section
variable [U : Ucd]

/-- A word with an upper-case first letter. -/
def capital : Str → Str
  | [] => []
  | c :: r => U.toUpper c ++ r

/-- Words capitalised and glued together. -/
def glue (ws : List Str) : Str := (ws.map capital).flatten

/-- The words of a title capitalised and glued together. -/
def pascal (t : Str) : Str := glue (splitWs t)

/-- As `pascal`, with a lower-case first letter. -/
def camel (t : Str) : Str :=
  match pascal t with
  | [] => []
  | c :: r => U.toLower c ++ r

/-- The name of the modifier of a condition. -/
def modName (c : Ast) : Str := camel (titleOf c)

/-- The action reads `it should revert`, ignoring case, surrounding white space and characters that
cannot occur in identifiers. -/
def revertAction (a : Ast) : Bool := sanitize (strToLower (trim (titleOf a))) = c!"it should revert"

/-- The first direct action of the condition reads `it should revert`. -/
def reverts (c : Ast) : Bool :=
  match actionsOf c with
  | [] => false
  | a :: _ => revertAction a

/-- The name of the test of a condition. -/
def testName (c : Ast) : Str :=
  match splitWs (titleOf c) with
  | [] => []
  | kw :: ws => if reverts c then c!"test_Revert" ++ capital kw ++ c!"_" ++ glue ws else c!"test_" ++ glue (kw :: ws)

/-- The modifier of a condition. -/
def modFn (c : Ast) : HFn := ⟨modName c, .modifier, c.span, none, none⟩

/-- A list of modifiers, in the representation of the code. -/
def modList (l : List Str) : Option (List Str) := if l = [] then none else some l

/-- The conditions whose modifiers guard the test of `c` inside `encl`. -/
def guards (encl : List Ast) (c : Ast) : List Ast := encl ++ if hasNested c then [c] else []

/-- The test of a condition inside `encl`. -/
def condFn (skip : Bool) (encl : List Ast) (c : Ast) : HFn :=
  ⟨testName c, .function, c.span, modList ((guards encl c).map modName), some (bodyOf skip (commentsOf c))⟩

/-- The test of an action directly below the root. -/
def actFn (skip : Bool) (a : Ast) : HFn :=
  ⟨c!"test_" ++ sanitize (glue ((splitWs (titleOf a)).drop 1)), .function, a.span, none,
    some (bodyOf skip (commentLines a))⟩

/-- The functions of a condition inside `encl`: its modifier if it has nested conditions, its test if it
has actions. -/
def condFns (skip : Bool) (p : List Ast × Ast) : List HFn :=
  (if hasNested p.2 then [modFn p.2] else []) ++ (if actionsOf p.2 = [] then [] else [condFn skip p.1 p.2])

/-- The functions of a tree: the test of each top-level action, the functions of each condition in pre-order. -/
def expected (skip : Bool) (children : List Ast) : List HFn :=
  children.flatMap (fun a => if a.isAction then [actFn skip a] else (inScope [] a).flatMap (condFns skip))

end
end Bulloak.Spec

namespace Bulloak.Spec
open Bulloak

/-- The text of a comment. -/
def commentText : BodyItem → Option Str
  | .comment t => some t
  | .vmSkip => none

/-- The comment lines of a function body, in order. -/
def comments (f : HFn) : List Str := (f.children.getD []).filterMap commentText

/-- The titles of all actions and descriptions, in source order. -/
def leaves (asts : List Ast) : List Str := ((preAll asts).filter (fun a => !a.isCondition)).map titleOf

/-- The actions of the condition come before its nested conditions. -/
def ActionsFirst (c : Ast) : Prop :=
  ∃ A B, kids c = A ++ B ∧ (∀ a ∈ A, a.isAction = true) ∧ ∀ b ∈ B, b.isCondition = true

/-- An ASCII letter. -/
def IsLetter (c : Char) : Prop := (65 ≤ c.toNat ∧ c.toNat ≤ 90) ∨ (97 ≤ c.toNat ∧ c.toNat ≤ 122)

/-- A Solidity identifier: ASCII letters, digits, `_` and `$`, not starting with a digit. -/
def SolIdent (s : Str) : Prop :=
  ∃ c r, s = c :: r ∧ (IsLetter c ∨ c = '_' ∨ c = '$') ∧ ∀ d ∈ r, isAsciiAlnum d = true ∨ d = '_' ∨ d = '$'

/-- An identifier in the sense of Unicode: starts with a letter (an ASCII one), goes on with identifier
characters. -/
def XidIdent [U : Ucd] (s : Str) : Prop := ∃ c r, s = c :: r ∧ IsLetter c ∧ ∀ d ∈ r, U.isXid d = true

/-- The kinds and names of the functions of a tree, top to bottom. -/
def outline [U : Ucd] (children : List Ast) : List (FnTy × Str) :=
  children.flatMap (fun a =>
    if a.isAction then [(.function, c!"test_" ++ sanitize (glue ((splitWs (titleOf a)).drop 1)))]
    else (conditionsOf [a]).flatMap (fun c =>
      (if hasNested c then [(.modifier, modName c)] else []) ++
      (if actionsOf c = [] then [] else [(.function, testName c)])))

end Bulloak.Spec
