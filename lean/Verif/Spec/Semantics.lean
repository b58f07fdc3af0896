import Verif.Spec.Shape
import Verif.Model.Semantics
/-! # Specification: which trees are meaningful -/

namespace Bulloak.Spec
open Bulloak

/-- All conditions among the nodes of a forest, in source order. -/
def conditionsOf (asts : List Ast) : List Ast := (preAll asts).filter Ast.isCondition

/-- The nodes that get a name: all conditions, and the actions directly below the root; in source order. -/
def named (children : List Ast) : List Ast :=
  children.flatMap (fun a => if a.isAction then [a] else conditionsOf [a])

/-- The title of a node. -/
def titleOf : Ast → Str
  | .root _ t _ => t
  | .condition _ t _ => t
  | .action _ t _ => t
  | .description _ t => t

/-- The first occurrences of the elements of a list. -/
def firsts : List Str → List Str
  | [] => []
  | x :: xs => x :: (firsts xs).filter (fun y => y ≠ x)

variable [U : Ucd]

/-- The identifier of a node: the words of its sanitised title, capitalised and glued together, with a
lower-case first letter. -/
def identOf (a : Ast) : Str := lowerFirst (toPascal (sanitize (titleOf a)))

/-- The places of the named nodes with identifier `i`. -/
def placesOf (children : List Ast) (i : Str) : List Span :=
  ((named children).filter (fun a => identOf a = i)).map Ast.span

/-- The complaint about an identifier, if it is used more than once: all places, pointing at the first. -/
def dupComplaint (children : List Ast) (i : Str) : List SemError :=
  match placesOf children i with
  | p :: q :: r => [⟨.identifierDuplicated (p :: q :: r), ⟨p.start, p.start⟩⟩]
  | _ => []

/-- Everything that is wrong with a tree. -/
def complaints (span : Span) (children : List Ast) : List SemError :=
  (if children = [] then [⟨.treeEmpty, ⟨span.stop, span.stop⟩⟩] else []) ++
  ((conditionsOf children).filter (fun c => (kids c).isEmpty)).map (fun c => ⟨.conditionEmpty, c.span⟩) ++
  (firsts ((named children).map identOf)).flatMap (dupComplaint children)

end Bulloak.Spec
