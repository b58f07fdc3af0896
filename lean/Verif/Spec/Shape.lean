import Verif.Spec.Grammar
/-! # Specification: traversals of the AST and its shape -/

namespace Bulloak.Spec
open Bulloak

/-- The children of a node. -/
def kids : Ast → List Ast
  | .root _ _ cs => cs
  | .condition _ _ cs => cs
  | .action _ _ cs => cs
  | .description _ _ => []

mutual
/-- The nodes of a tree in pre-order. -/
def pre : Ast → List Ast
  | .root s t cs => .root s t cs :: preAll cs
  | .condition s t cs => .condition s t cs :: preAll cs
  | .action s t cs => .action s t cs :: preAll cs
  | .description s t => [.description s t]
/-- The nodes of a forest in pre-order. -/
def preAll : List Ast → List Ast
  | [] => []
  | a :: as => pre a ++ preAll as
end

/-- A condition or action with contents of the right kind. -/
inductive ItemShape : Ast → Prop where
  | condition {s t cs} : (∀ c ∈ cs, ItemShape c) → ItemShape (.condition s t cs)
  | action {s t cs} : (∀ c ∈ cs, ∃ s' t', c = .description s' t') → ItemShape (.action s t cs)

/-- The shape of a tree: root, then conditions and actions, then (below actions) descriptions. -/
def TreeShape (a : Ast) : Prop := ∃ s n cs, a = .root s n cs ∧ ∀ c ∈ cs, ItemShape c

/-- The column where a node starts (its branch glyph). -/
def colOf (a : Ast) : Nat := a.span.start.column

/-- No sibling is right of any node of the siblings before it (so none of these could be its parent). -/
def SibsLeft (asts : List Ast) : Prop := ∀ A k B, asts = A ++ k :: B → ∀ x ∈ preAll A, colOf k ≤ colOf x

/-- The children of `a` are right of `a` and, unless they are the descriptions of an action, every node
between `a` and a child (in pre-order, i.e. in source order) is at least as far right as the child.
In other words `a` is the nearest preceding node in a column smaller than the child's. -/
def Nests (a : Ast) : Prop :=
  (∀ k ∈ kids a, colOf a < colOf k) ∧ (a.isAction = false → SibsLeft (kids a))

/-- Spans nest and siblings are disjoint and ordered. -/
inductive SpansNest : Ast → Prop where
  | mk {a} : a.span.start.offset ≤ a.span.stop.offset →
      (∀ k ∈ kids a, a.span.start.offset ≤ k.span.start.offset ∧ k.span.stop.offset ≤ a.span.stop.offset) →
      (kids a).Pairwise (fun x y => x.span.stop.offset < y.span.start.offset) →
      (∀ k ∈ kids a, SpansNest k) → SpansNest a

/-- The children of `a` are drawn properly: the token at which a child starts is `└` for the last child
and `├` for the others. -/
def DrawnRight (toks : List Token) (a : Ast) : Prop :=
  ∀ A k B, kids a = A ++ k :: B →
    (∃ t ∈ toks, t.span.start = k.span.start) ∧
    ∀ t ∈ toks, t.span.start = k.span.start → t.lexeme = if B = [] then c!"└" else c!"├"

variable [U : Ucd]

/-- The node stands for the header: same place, same kind, same words. -/
def Stands (a : Ast) (h : Header) : Prop :=
  a.span.start = h.glyph.span.start ∧
  match a with
  | .condition _ t _ => h.isCondition ∧ h.more ≠ [] ∧ t = sanitize h.title
  | .action _ t _ => h.isAction ∧ t = h.title
  | .description _ t => h.first.kind = .word ∧ ∃ n, t = spaces n ++ h.title
  | .root .. => False

/-- Element-wise relation of two lists. -/
inductive Each {α β : Type} (R : α → β → Prop) : List α → List β → Prop where
  | nil : Each R [] []
  | cons {a b as bs} : R a b → Each R as bs → Each R (a :: as) (b :: bs)

end Bulloak.Spec
