import Verif.Model.Span
/-! # The abstract syntax tree (`crates/syntax/src/ast.rs`) -/

namespace Bulloak

/-- Models `Ast`, `Root`, `Condition`, `Action` and `Description` (`crates/syntax/src/ast.rs:8-95`). -/
inductive Ast where
  | root (span : Span) (contractName : Str) (children : List Ast)
  | condition (span : Span) (title : Str) (children : List Ast)
  | action (span : Span) (title : Str) (children : List Ast)
  | description (span : Span) (text : Str)
  deriving Repr

namespace Ast

/-- Models `Ast::span` (`crates/syntax/src/ast.rs:28-35`). -/
def span : Ast → Span
  | root s _ _ => s
  | condition s _ _ => s
  | action s _ _ => s
  | description s _ => s

/-- Models `Ast::is_action` (`crates/syntax/src/ast.rs:39-41`). -/
def isAction : Ast → Bool
  | action .. => true
  | _ => false

/-- Whether the node is a condition. -/
def isCondition : Ast → Bool
  | condition .. => true
  | _ => false

end Ast
end Bulloak
