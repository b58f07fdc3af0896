import Verif.Model.Tokenizer
import Verif.Model.Utils
import Verif.Model.Ast
/-!
# Parser (`crates/syntax/src/parser.rs`)

The Rust parser keeps an index into the token slice.  The model keeps the token before the index
(`prev`, what `previous()` returns) and the tokens from the index on (`rest`).  `current()` is
`rest.head?`, `peek()` is the second element of `rest`.
-/

namespace Bulloak

/-- Models `parser::ErrorKind` (`crates/syntax/src/parser.rs:58-111`). -/
inductive ParseErrorKind where
  | tokenUnexpected (lexeme : Str)
  | descriptionTokenUnexpected (lexeme : Str)
  | whenUnexpected
  | givenUnexpected
  | itUnexpected
  | wordUnexpected (lexeme : Str)
  | eofUnexpected
  | treeEmpty
  | titleMissing
  | treeRootless
  | cornerNotLastChild
  | teeLastChild
  deriving DecidableEq, Repr

/-- Models `parser::Error` (`crates/syntax/src/parser.rs:18-30`) without the copy of the text, which is
added by the caller. -/
structure ParseError where
  kind : ParseErrorKind
  span : Span
  deriving DecidableEq, Repr

/-- The parser's cursor (`crates/syntax/src/parser.rs:118-121`). -/
structure PState where
  prev : Option Token
  rest : List Token
  deriving DecidableEq, Repr

namespace PState

/-- Models `is_eof` (`crates/syntax/src/parser.rs:176-178`). -/
def isEof (s : PState) : Bool := s.rest.isEmpty

/-- Models `current` (`crates/syntax/src/parser.rs:184-186`). -/
def current (s : PState) : Option Token := s.rest.head?

/-- Models `peek` (`crates/syntax/src/parser.rs:192-195`). -/
def peek (s : PState) : Option Token := s.rest.tail.head?

/-- Models the state change of `consume` (`crates/syntax/src/parser.rs:211-217`); the token it returns is
`current` of the new state. -/
def consume (s : PState) : PState :=
  match s.rest with
  | [] => s
  | t :: r => ⟨some t, r⟩

end PState

/-- Byte length of a string (`str::len`). -/
def byteLen (s : Str) : Nat := (s.map Char.utf8Size).sum

/-- Tokens that continue a string (`crates/syntax/src/parser.rs:504-510`). -/
def TokenKind.isWordLike : TokenKind → Bool
  | .word | .it | .when | .given => true
  | .tee | .corner => false

/-- Models the loop of `parse_string` (`crates/syntax/src/parser.rs:503-513`), recursing on the
remaining tokens. -/
def stringLoop (acc : Str) (prev : Option Token) (rest : List Token) : Str × PState :=
  match rest with
  | [] => (acc, ⟨prev, []⟩)               -- consume() = None (already at the end)
  | t :: r =>
    match r with
    | [] => (acc, ⟨some t, []⟩)           -- consume() moved to the end: None
    | u :: r' =>
      if u.kind.isWordLike then stringLoop (acc ++ c!" " ++ u.lexeme) (some t) (u :: r')
      else (acc, ⟨some t, u :: r'⟩)

/-- Models `parse_string` (`crates/syntax/src/parser.rs:498-516`). -/
def parseString (startToken : Token) (s : PState) : Str × PState :=
  let s := s.consume
  stringLoop startToken.lexeme s.prev s.rest

/-- `matches!(kind, Tee | Corner)`. -/
def TokenKind.isBranch : TokenKind → Bool
  | .tee | .corner => true
  | _ => false

/-- Error value helper: `self.error(span, kind)` (`crates/syntax/src/parser.rs:170-172`). -/
def perr (span : Span) (kind : ParseErrorKind) : ParseError := ⟨kind, span⟩

/-- Models `parse_description` (`crates/syntax/src/parser.rs:472-490`). -/
def parseDescription (token : Token) (columnDelta : Nat) (s : PState) : Res ParseError (Ast × PState) :=
  if !token.kind.isBranch then .panic            -- assert!
  else do
    let startToken ← Res.okOr s.peek (perr (token.span.withStart token.span.stop) .eofUnexpected)
    let (text, s) := parseString startToken s
    let previous ← Res.unwrap s.prev
    .ok (.description ⟨token.span.start, previous.span.stop⟩ (spaces columnDelta ++ text), s)

/-- Models the children loop of `parse_action` (`crates/syntax/src/parser.rs:411-438`).  `fuel` bounds the
number of iterations. -/
def actionLoop (token : Token) : Nat → List Ast → PState → Res ParseError (List Ast × PState)
  | 0, _, _ => .panic
  | fuel + 1, children, s =>
    match s.current with
    | none => .ok (children, s)
    | some t =>
      if token.span.start.column < t.span.start.column then do
        let nextToken ← Res.okOr s.peek (perr (token.span.withStart token.span.stop) .eofUnexpected)
        let currentToken ← Res.unwrap s.current
        match nextToken.kind with
        | .word => do
          let (ast, s) ← parseDescription currentToken
            (currentToken.span.start.column - token.span.start.column) s
          actionLoop token fuel (children ++ [ast]) s
        | _ => .err (perr nextToken.span (.descriptionTokenUnexpected nextToken.lexeme))
      else .ok (children, s)

/-- Models `parse_action` (`crates/syntax/src/parser.rs:402-446`). -/
def parseAction (fuel : Nat) (token : Token) (s : PState) : Res ParseError (Ast × PState) :=
  if !token.kind.isBranch then .panic            -- assert!
  else do
    let startToken ← Res.okOr s.peek (perr (token.span.withStart token.span.stop) .eofUnexpected)
    let (title, s) := parseString startToken s
    let (children, s) ← actionLoop token fuel [] s
    let previous ← Res.unwrap s.prev
    .ok (.action ⟨token.span.start, previous.span.stop⟩ title children, s)

section
variable [U : Ucd]

mutual
/-- Models `parse_condition` (`crates/syntax/src/parser.rs:343-389`).  `fuel` bounds the recursion. -/
def parseCondition (fuel : Nat) (token : Token) (s : PState) : Res ParseError (Ast × PState) :=
  match fuel with
  | 0 => .panic
  | fuel + 1 =>
    if !token.kind.isBranch then .panic          -- assert!
    else do
      let startToken ← Res.okOr s.peek (perr (token.span.withStart token.span.stop) .eofUnexpected)
      let (title, s) := parseString startToken s
      if byteLen title = byteLen startToken.lexeme then .err (perr startToken.span .titleMissing)
      else do
        let (children, s) ← conditionLoop fuel token [] s
        let previous ← Res.unwrap s.prev
        .ok (.condition ⟨token.span.start, previous.span.stop⟩ (sanitize title) children, s)

/-- Models the children loop of `parse_condition` (`crates/syntax/src/parser.rs:356-381`). -/
def conditionLoop (fuel : Nat) (token : Token) (children : List Ast) (s : PState) :
    Res ParseError (List Ast × PState) :=
  match fuel with
  | 0 => .panic
  | fuel + 1 =>
    match s.current with
    | none => .ok (children, s)
    | some t =>
      if token.span.start.column < t.span.start.column then do
        let nextToken ← Res.okOr s.peek (perr (token.span.withStart token.span.stop) .eofUnexpected)
        let currentToken ← Res.unwrap s.current
        match nextToken.kind with
        | .when | .given => do
          let (ast, s) ← parseCondition fuel currentToken s
          conditionLoop fuel token (children ++ [ast]) s
        | .it => do
          let (ast, s) ← parseAction fuel currentToken s
          conditionLoop fuel token (children ++ [ast]) s
        | _ => .err (perr nextToken.span (.tokenUnexpected nextToken.lexeme))
      else .ok (children, s)
end

/-- Models `parse_branch` (`crates/syntax/src/parser.rs:298-330`). -/
def parseBranch (fuel : Nat) (token : Token) (s : PState) : Res ParseError (Ast × PState) :=
  if !token.kind.isBranch then .panic            -- assert!
  else do
    let firstToken ← Res.okOr s.peek (perr (token.span.withStart token.span.stop) .eofUnexpected)
    let (ast, s) ← match firstToken.kind with
      | .when | .given => parseCondition fuel token s
      | .it => parseAction fuel token s
      | _ => .err (perr firstToken.span (.tokenUnexpected firstToken.lexeme))
    if token.kind = .tee ∧ s.isEof = true then
      .err (perr (token.span.withStart token.span.stop) .teeLastChild)
    else if token.kind = .corner ∧ s.isEof = false then
      .err (perr (token.span.withStart token.span.stop) .cornerNotLastChild)
    else .ok (ast, s)

/-- Models the loop of `parse_root` (`crates/syntax/src/parser.rs:253-276`). -/
def rootLoop (fuel : Nat) (children : List Ast) (s : PState) : Res ParseError (List Ast × PState) :=
  match fuel with
  | 0 => .panic
  | fuel + 1 =>
    match s.current with
    | none => .ok (children, s)
    | some t =>
      match t.kind with
      | .corner | .tee => do
        let (ast, s) ← parseBranch fuel t s
        rootLoop fuel (children ++ [ast]) s
      | .word => .err (perr t.span (.wordUnexpected t.lexeme))
      | .when => .err (perr t.span .whenUnexpected)
      | .given => .err (perr t.span .givenUnexpected)
      | .it => .err (perr t.span .itUnexpected)

/-- Models `parse_root` (`crates/syntax/src/parser.rs:247-289`). -/
def parseRoot (fuel : Nat) (token : Token) (s : PState) : Res ParseError Ast :=
  if token.kind ≠ .word then .panic              -- assert!
  else do
    let (children, _) ← rootLoop fuel [] s.consume
    let lastSpan := match children.getLast? with
      | none => token.span
      | some c => c.span
    .ok (.root ⟨token.span.start, lastSpan.stop⟩ token.lexeme children)

/-- Fuel that suffices to parse `n` tokens: every step of the mutual recursion consumes a token or
returns. -/
def parseFuel (n : Nat) : Nat := 2 * n + 2

/-- Models `parse` (`crates/syntax/src/parser.rs:224-235`). -/
def parseTokens (tokens : List Token) : Res ParseError Ast := do
  let s : PState := ⟨none, tokens⟩
  let rootToken ← Res.okOr s.current (perr Span.default .treeEmpty)
  match rootToken.kind with
  | .word => parseRoot (parseFuel tokens.length) rootToken s
  | _ => .err (perr rootToken.span .treeRootless)

end
end Bulloak
