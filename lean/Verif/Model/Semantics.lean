import Verif.Model.Utils
import Verif.Model.Ast
/-!
# Semantic analysis (`crates/syntax/src/semantics.rs`)

The `HashMap` from identifiers to spans is an association list in insertion order; the arbitrary
iteration order of `into_values` is a parameter `order`, any permutation of the values.
-/

namespace Bulloak

/-- Models `semantics::ErrorKind` (`crates/syntax/src/semantics.rs:74-90`). -/
inductive SemErrorKind where
  | identifierDuplicated (spans : List Span)
  | conditionEmpty
  | nodeUnexpected
  | treeEmpty
  deriving DecidableEq, Repr

/-- Models `semantics::Error` (`crates/syntax/src/semantics.rs:23-33`) without the copy of the text. -/
structure SemError where
  kind : SemErrorKind
  span : Span
  deriving DecidableEq, Repr

/-- The analyzer's state (`crates/syntax/src/semantics.rs:93-101`). -/
structure SemState where
  errors : List SemError
  identifiers : List (Str × List Span)
  deriving DecidableEq, Repr

/-- `identifiers.get_mut(id)` / `insert` (`crates/syntax/src/semantics.rs:181-187`, `209-214`). -/
def addIdentifier (id : Str) (span : Span) : List (Str × List Span) → List (Str × List Span)
  | [] => [(id, [span])]
  | (k, spans) :: m => if k = id then (k, spans ++ [span]) :: m else (k, spans) :: addIdentifier id span m

section
variable [U : Ucd]

/-- Identifier of a title: `lower_first_letter(&to_pascal_case(&sanitize(title)))`
(`crates/syntax/src/semantics.rs:178-180`, `207-208`). -/
def semIdent (title : Str) : Str := lowerFirst (toPascal (sanitize title))

mutual
/-- Models `visit_condition` (`crates/syntax/src/semantics.rs:199-231`) on a node; other nodes are handled by
`semConditionChild`. -/
def semCondition (span : Span) (title : Str) (children : List Ast) (s : SemState) : SemState :=
  let s := if children.isEmpty then { s with errors := s.errors ++ [⟨.conditionEmpty, span⟩] } else s
  let s := { s with identifiers := addIdentifier (semIdent title) span s.identifiers }
  semConditionChildren children s

/-- The loop over a condition's children (`crates/syntax/src/semantics.rs:216-228`); `visit_action` does
nothing. -/
def semConditionChildren (children : List Ast) (s : SemState) : SemState :=
  match children with
  | [] => s
  | c :: cs => semConditionChildren cs (semConditionChild c s)

/-- The body of that loop. -/
def semConditionChild (c : Ast) (s : SemState) : SemState :=
  match c with
  | .condition span title children => semCondition span title children s
  | .action .. => s
  | .root span _ _ => { s with errors := s.errors ++ [⟨.nodeUnexpected, span⟩] }
  | .description span _ => { s with errors := s.errors ++ [⟨.nodeUnexpected, span⟩] }
end

/-- The body of the loop over the root's children (`crates/syntax/src/semantics.rs:170-194`). -/
def semRootChild (s : SemState) (c : Ast) : SemState :=
  match c with
  | .condition span title children => semCondition span title children s
  | .action span title _ => { s with identifiers := addIdentifier (semIdent title) span s.identifiers }
  | .root span _ _ => { s with errors := s.errors ++ [⟨.nodeUnexpected, span⟩] }
  | .description span _ => { s with errors := s.errors ++ [⟨.nodeUnexpected, span⟩] }

/-- Models `visit_root` (`crates/syntax/src/semantics.rs:162-197`). -/
def semRoot (span : Span) (children : List Ast) (s : SemState) : SemState :=
  let s := if children.isEmpty then { s with errors := s.errors ++ [⟨.treeEmpty, Span.splat span.stop⟩] } else s
  children.foldl semRootChild s

/-- The dispatch at the start of `analyze` (`crates/syntax/src/semantics.rs:124-134`). -/
def semVisit (ast : Ast) (s : SemState) : SemState :=
  match ast with
  | .root span _ children => semRoot span children s
  | .condition span title children => semCondition span title children s
  | .action .. => s
  | .description .. => s

/-- One `IdentifierDuplicated` error per identifier with more than one span
(`crates/syntax/src/semantics.rs:137-147`).  `spans[0]` cannot panic: the list has at least two elements. -/
def dupErrors (values : List (List Span)) : List SemError :=
  values.filterMap (fun spans =>
    match spans with
    | s0 :: _ :: _ => some ⟨.identifierDuplicated spans, s0.withEnd s0.start⟩
    | _ => none)

/-- An iteration order of the hash map: how `into_values` permutes the entries. -/
abbrev HashOrder := List (List Span) → List (List Span)

/-- Models `analyze` (`crates/syntax/src/semantics.rs:123-154`): the list of errors (empty = `Ok`). -/
def analyze (order : HashOrder) (ast : Ast) : List SemError :=
  let s := semVisit ast ⟨[], []⟩
  s.errors ++ dupErrors (order (s.identifiers.map Prod.snd))

end
end Bulloak
