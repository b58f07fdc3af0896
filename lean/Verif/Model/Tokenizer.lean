import Verif.Model.Unicode
import Verif.Model.Span
/-!
# Tokenizer (`crates/syntax/src/tokenizer.rs`)

The Rust tokenizer keeps a byte offset into the text; the model keeps the remaining characters
(`rest`) together with the position.  `char()` is the head of `rest`, `peek()` the second element,
`is_eof()` is `rest = []`.
-/

namespace Bulloak

/-- Models `TokenKind` (`crates/syntax/src/tokenizer.rs:95-113`). -/
inductive TokenKind where
  | tee | corner | word | when | given | it
  deriving DecidableEq, Repr

/-- Models `Token` (`crates/syntax/src/tokenizer.rs:60-75`). -/
structure Token where
  kind : TokenKind
  span : Span
  lexeme : Str
  deriving DecidableEq, Repr

/-- Models `Token::is_branch` (`crates/syntax/src/tokenizer.rs:78-86`). -/
def Token.isBranch (t : Token) : Bool :=
  match t.kind with
  | .tee | .corner => true
  | .word | .when | .given | .it => false

/-- Models `tokenizer::ErrorKind` and `tokenizer::Error` (`crates/syntax/src/tokenizer.rs:13-58`): the
only kind is `IdentifierCharInvalid(c)`.  The error's copy of the text is added by the caller
(`Syntax.lean`). -/
structure TokError where
  char : Char
  span : Span
  deriving DecidableEq, Repr

/-- The scanner's state: what is left of the text from the current offset, the current position and
the identifier-mode flag (`crates/syntax/src/tokenizer.rs:119-130`). -/
structure Scan where
  rest : Str
  pos : Position
  idMode : Bool
  deriving DecidableEq, Repr

/-- Position after reading character `c` at position `p` (`crates/syntax/src/tokenizer.rs:273-283`).
`checked_add(..).unwrap()` cannot fail on `Nat`: overflow of `usize` is not modelled. -/
def Position.advance (p : Position) (c : Char) : Position :=
  if c = '\n' then ⟨p.offset + c.utf8Size, p.line + 1, 1⟩
  else ⟨p.offset + c.utf8Size, p.line, p.column + 1⟩

/-- Models `scan` (`crates/syntax/src/tokenizer.rs:269-285`). -/
def Scan.scan (s : Scan) : Scan :=
  match s.rest with
  | [] => s
  | c :: r => { s with rest := r, pos := s.pos.advance c }

/-- Models `exit_mode` (`crates/syntax/src/tokenizer.rs:260-264`). -/
def Scan.exitMode (s : Scan) : Scan := { s with idMode := false }

variable [U : Ucd]

/-- Models `is_valid_identifier_char` (`crates/syntax/src/tokenizer.rs:397-399`). -/
def isValidIdentChar (c : Char) : Bool :=
  U.isAlnum c || c == '_' || c == '-' || c == '\'' || c == '"'

/-- Models `str::to_lowercase` as character-wise lower-casing (the contextual final-sigma rule of Rust
is not modelled; it never produces ASCII characters and the result is only compared with ASCII
strings). -/
def strToLower (s : Str) : Str := s.flatMap U.toLower

/-- Models the keyword match (`crates/syntax/src/tokenizer.rs:373-378`). -/
def wordKind (lexeme : Str) : TokenKind :=
  let l := strToLower lexeme
  if l = c!"when" then .when
  else if l = c!"it" then .it
  else if l = c!"given" then .given
  else .word

/-- Models `scan_comments` (`crates/syntax/src/tokenizer.rs:340-347`), recursing on `rest`. -/
def scanComments (rest : Str) (pos : Position) : Str × Position :=
  match rest with
  | c :: d :: r =>
    if d = '\n' then (c :: d :: r, pos) else scanComments (d :: r) (pos.advance c)
  | r => (r, pos)

/-- Models the loop of `scan_word` (`crates/syntax/src/tokenizer.rs:354-390`), recursing on `rest`.
Returns the token and the scanner standing on the last character of the word. -/
def scanWord (idMode : Bool) (start : Position) (lexeme : Str) (rest : Str) (pos : Position) :
    Res TokError (Token × Str × Position) :=
  match rest with
  | [] => .panic   -- `char()` at end of text
  | c :: r =>
    if idMode && !isValidIdentChar c then .err ⟨c, Span.splat pos⟩
    else
      match r with
      | [] => .ok (⟨wordKind (lexeme ++ [c]), (Span.splat pos).withStart start, lexeme ++ [c]⟩, c :: r, pos)
      | d :: r' =>
        if isWs d then
          .ok (⟨wordKind (lexeme ++ [c]), (Span.splat pos).withStart start, lexeme ++ [c]⟩, c :: r, pos)
        else scanWord idMode start (lexeme ++ [c]) (d :: r') (pos.advance c)

/-- Models one iteration of the loop of `tokenize` up to the final `scan`
(`crates/syntax/src/tokenizer.rs:297-329`), for current character `c` with `r` after it. -/
def tokStep (toks : List Token) (s : Scan) (c : Char) (r : Str) : Res TokError (List Token × Scan) :=
  if c = ' ' ∨ c = '─' ∨ c = '│' then .ok (toks, s)
  else if c = '\n' ∨ c = '\t' ∨ c = '\r' then .ok (toks, s.exitMode)
  else if c = '├' then .ok (toks ++ [⟨.tee, Span.splat s.pos, c!"├"⟩], s)
  else if c = '└' then .ok (toks ++ [⟨.corner, Span.splat s.pos, c!"└"⟩], s)
  else if c = '/' ∧ r.head? = some '/' then
    let (rest, pos) := scanComments s.rest s.pos
    .ok (toks, { s.exitMode with rest := rest, pos := pos })
  else do
    let (token, rest, pos) ← scanWord s.idMode s.pos [] s.rest s.pos
    let lastIsBranch := (toks.getLast?.map Token.isBranch).getD false
    let idMode := if lastIsBranch && (token.kind = .when || token.kind = .given) then true else s.idMode
    .ok (toks ++ [token], ⟨rest, pos, idMode⟩)

/-- Models the loop of `tokenize` (`crates/syntax/src/tokenizer.rs:292-336`).  Every iteration consumes
at least one character, so `fuel = length + 1` never runs out. -/
def tokLoop (fuel : Nat) (toks : List Token) (s : Scan) : Res TokError (List Token) :=
  match fuel with
  | 0 => .panic
  | fuel + 1 =>
    match s.rest with
    | [] => .ok toks
    | c :: r => do
      let (toks, s) ← tokStep toks s c r
      let s := s.scan
      if s.rest = [] then .ok toks else tokLoop fuel toks s

/-- Models `tokenize` (`crates/syntax/src/tokenizer.rs:288-337`). -/
def tokenize (text : Str) : Res TokError (List Token) :=
  tokLoop (text.length + 1) [] ⟨text, Position.start, false⟩

end Bulloak
