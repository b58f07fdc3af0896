import Verif.Model.Tokenizer
/-!
# Specification: the lexical structure of a `.tree` text

Independent of the tokenizer: a text is decomposed into *pieces* (skipped characters, line/tab breaks,
branch glyphs, `//` comments, words), and positions are computed from the text before them.
-/

namespace Bulloak.Spec
open Bulloak

/-- A lexical piece of a text. -/
inductive Piece where
  | skip (c : Char)
  | brk (c : Char)
  | tee
  | corner
  | comment (s : Str)
  | word (s : Str)
  deriving DecidableEq, Repr

/-- Blank and drawing characters that never matter. -/
abbrev IsSkip (c : Char) : Prop := c = ' ' ∨ c = '─' ∨ c = '│'

/-- Characters that end a condition title. -/
abbrev IsBreak (c : Char) : Prop := c = '\n' ∨ c = '\t' ∨ c = '\r'

/-- The text of a piece. -/
def Piece.chars : Piece → Str
  | .skip c => [c]
  | .brk c => [c]
  | .tee => c!"├"
  | .corner => c!"└"
  | .comment s => c!"//" ++ s
  | .word s => s

/-- `r` is the end of the text or starts with a line feed. -/
def AtLineEnd (r : Str) : Prop := r = [] ∨ ∃ r', r = '\n' :: r'

/-- `r` is the end of the text or starts with white space. -/
def AtWordEnd (r : Str) : Prop := r = [] ∨ ∃ d r', r = d :: r' ∧ isWs d = true

/-- A word may start with `c` when the text continues with `r`. -/
def StartsWord (c : Char) (r : Str) : Prop :=
  ¬ IsSkip c ∧ ¬ IsBreak c ∧ c ≠ '├' ∧ c ≠ '└' ∧ ¬ (c = '/' ∧ ∃ r', r = '/' :: r')

/-- `Lexes text pieces`: `pieces` is the lexical decomposition of `text`. -/
inductive Lexes : Str → List Piece → Prop where
  | nil : Lexes [] []
  | skip {c r ps} : IsSkip c → Lexes r ps → Lexes (c :: r) (.skip c :: ps)
  | brk {c r ps} : IsBreak c → Lexes r ps → Lexes (c :: r) (.brk c :: ps)
  | tee {r ps} : Lexes r ps → Lexes ('├' :: r) (.tee :: ps)
  | corner {r ps} : Lexes r ps → Lexes ('└' :: r) (.corner :: ps)
  | comment {s r ps} : '\n' ∉ s → AtLineEnd r → Lexes r ps →
      Lexes ('/' :: '/' :: (s ++ r)) (.comment s :: ps)
  | word {c s r ps} : StartsWord c (s ++ r) → (∀ d ∈ s, isWs d = false) → AtWordEnd r → Lexes r ps →
      Lexes (c :: (s ++ r)) (.word (c :: s) :: ps)

/-- The characters of `s` after its last line feed. -/
def lastLine (s : Str) : Str := (s.reverse.takeWhile (· ≠ '\n')).reverse

/-- The position right after the text `pre`: byte offset, 1-based line, 1-based column. -/
def posOf (pre : Str) : Position :=
  ⟨(pre.map Char.utf8Size).sum, 1 + pre.count '\n', 1 + (lastLine pre).length⟩

/-- Text that carries no tokens: skipped characters, breaks and comments up to the end of their line
(`rest` is what follows the gap). -/
inductive Gap : Str → Str → Prop where
  | nil {rest} : Gap [] rest
  | char {c g rest} : IsSkip c ∨ IsBreak c → Gap g rest → Gap (c :: g) rest
  | comment {s g rest} : '\n' ∉ s → AtLineEnd (g ++ rest) → Gap g rest → Gap ('/' :: '/' :: (s ++ g)) rest

/-- `Tiles pre rest toks`: the tokens are exact, non-empty, consecutive slices of `pre ++ rest` starting
after `pre`, separated only by gaps, with the right positions. -/
inductive Tiles : Str → Str → List Token → Prop where
  | done {pre g} : Gap g [] → Tiles pre g []
  | tok {pre g rest t toks} : Gap g (t.lexeme ++ rest) → t.lexeme ≠ [] →
      t.span.start = posOf (pre ++ g) → t.span.stop = posOf (pre ++ g ++ t.lexeme.dropLast) →
      Tiles (pre ++ g ++ t.lexeme) rest toks → Tiles pre (g ++ t.lexeme ++ rest) (t :: toks)

/-- A branch glyph. -/
def Piece.isBranch : Piece → Bool
  | .tee | .corner => true
  | _ => false

/-- Pieces without a token. -/
def Piece.isGap : Piece → Bool
  | .skip _ | .brk _ | .comment _ => true
  | _ => false

/-- Pieces that end a condition title. -/
def Piece.endsTitle : Piece → Bool
  | .brk _ | .comment _ => true
  | _ => false

/-- `w` is the keyword `kw` up to ASCII case. -/
def IsKeyword (kw w : Str) : Prop := w.map asciiLower = kw

/-- `w` opens a condition. -/
def IsConditionWord (w : Str) : Prop := IsKeyword c!"when" w ∨ IsKeyword c!"given" w

/-- The kind a word must get. -/
def kindOfWord (w : Str) : TokenKind :=
  if w.map asciiLower = c!"when" then .when
  else if w.map asciiLower = c!"it" then .it
  else if w.map asciiLower = c!"given" then .given
  else .word

/-- After the pieces `P` we stand inside a condition title: the last branch glyph, directly followed
(up to gaps) by a `when` / `given` word, opened it and no break or comment has ended it. -/
def InTitle (P : List Piece) : Prop :=
  ∃ A br g kw B, P = A ++ br :: (g ++ .word kw :: B) ∧ br.isBranch = true ∧ (∀ p ∈ g, p.isGap = true) ∧
    IsConditionWord kw ∧ ∀ p ∈ B, p.endsTitle = false

/-- The characters allowed in a condition title. -/
def TitleChar [U : Ucd] (c : Char) : Prop :=
  U.isAlnum c = true ∨ c = '_' ∨ c = '-' ∨ c = '\'' ∨ c = '"'

/-- The text of a list of pieces. -/
def charsOf (ps : List Piece) : Str := ps.flatMap Piece.chars

/-- In the text with pieces `ps`, the character `x` right after the prefix `pre` is not allowed in the
condition title it is part of. -/
def BadTitleChar [U : Ucd] (ps : List Piece) (pre : Str) (x : Char) : Prop :=
  ∃ P a b C, ps = P ++ .word (a ++ x :: b) :: C ∧ InTitle P ∧ ¬ TitleChar x ∧ pre = charsOf P ++ a

end Bulloak.Spec

namespace Bulloak.Spec

/-- Line and column of a position (everything but the byte offset). -/
def lineCol (p : Position) : Nat × Nat := (p.line, p.column)

/-- What is observable of a token apart from byte offsets. -/
def tokView (t : Token) : TokenKind × Str × (Nat × Nat) × (Nat × Nat) :=
  (t.kind, t.lexeme, lineCol t.span.start, lineCol t.span.stop)

/-- What is observable of a tokenizer result apart from byte offsets. -/
def lexView : Res TokError (List Token) →
    Res (Char × (Nat × Nat) × (Nat × Nat)) (List (TokenKind × Str × (Nat × Nat) × (Nat × Nat)))
  | .ok toks => .ok (toks.map tokView)
  | .err e => .err (e.char, lineCol e.span.start, lineCol e.span.stop)
  | .panic => .panic

end Bulloak.Spec
