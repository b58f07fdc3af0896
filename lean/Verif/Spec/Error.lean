import Verif.Model.Error
import Verif.Model.Parser
import Verif.Spec.Lex
/-!
# Specification of error excerpts
-/

namespace Bulloak.Spec

/-- The span is exactly the place of `mid` after `pre` in the text: it starts at the first character of `mid` and stops at
the last. -/
def SpanOf (text : Str) (span : Span) (pre mid : Str) : Prop :=
  mid ≠ [] ∧ (∃ post, text = pre ++ mid ++ post) ∧ span.start = posOf pre ∧ span.stop = posOf (pre ++ mid.dropLast)

/-- The rest of a line: up to the end of the text, a line feed, or carriage return and line feed. -/
def RestOfLine (post b : Str) : Prop :=
  '\n' ∉ b ∧ (post = b ∨ ∃ r, (post = b ++ '\n' :: r ∧ b.getLast? ≠ some '\r') ∨ post = b ++ '\r' :: '\n' :: r)

/-- What every error message starts with. -/
def heading (kind : Str) : Str := List.replicate 79 '•' ++ c!"\n" ++ c!"bulloak error: " ++ kind

/-- The end of an error message: the line and the column after `pre`. -/
def place (pre : Str) : Str :=
  c!"--- (line " ++ natToStr (1 + pre.count '\n') ++ c!", column " ++ natToStr (1 + (lastLine pre).length) ++ c!") ---\n"

/-- The message about `mid`, found after `pre` in the text: the line of the text around `mid`, below it carets under exactly the
characters of `mid`, and the place. -/
def Renders (text kind pre mid out : Str) : Prop :=
  ∃ post b, text = pre ++ mid ++ post ∧ RestOfLine post b ∧
    out = heading kind ++ c!"\n\n" ++ lastLine pre ++ mid ++ b ++ c!"\n" ++
      List.replicate (lastLine pre).length ' ' ++ List.replicate mid.length '^' ++ c!"\n" ++ c!"\n" ++ place pre

/-- The message about something that starts after `pre` in the text: the line, below it at least one caret, the first
of them under the first character. -/
def RendersStart (text kind pre out : Str) : Prop :=
  ∃ post b n, text = pre ++ post ∧ RestOfLine post b ∧ 0 < n ∧
    out = heading kind ++ c!"\n\n" ++ lastLine pre ++ b ++ c!"\n" ++
      List.replicate (lastLine pre).length ' ' ++ List.replicate n '^' ++ c!"\n" ++ c!"\n" ++ place pre

/-- The token the parse error is about fits its kind. -/
def Blames : ParseErrorKind → Token → Prop
  | .tokenUnexpected l, t => l = t.lexeme ∧ t.kind ≠ .when ∧ t.kind ≠ .given ∧ t.kind ≠ .it
  | .descriptionTokenUnexpected l, t => l = t.lexeme ∧ t.kind ≠ .word
  | .wordUnexpected l, t => l = t.lexeme ∧ t.kind = .word
  | .whenUnexpected, t => t.kind = .when
  | .givenUnexpected, t => t.kind = .given
  | .itUnexpected, t => t.kind = .it
  | .eofUnexpected, t => t.kind = .tee ∨ t.kind = .corner
  | .treeEmpty, _ => False
  | .titleMissing, t => t.kind = .when ∨ t.kind = .given
  | .treeRootless, t => t.kind ≠ .word
  | .cornerNotLastChild, t => t.kind = .corner
  | .teeLastChild, t => t.kind = .tee

/-- The message about `mid`, found after `pre` in the text: no excerpt when `mid` is a single character at the very start of the
text; otherwise the line with carets, exactly under `mid` if it is within one line. -/
def Message (text kind pre mid out : Str) : Prop :=
  (pre = [] ∧ mid.length = 1 → out = heading kind) ∧
  (¬ (pre = [] ∧ mid.length = 1) → RendersStart text kind pre out ∧ ('\n' ∉ mid → Renders text kind pre mid out))

/-- The first line of a message about a word or glyph of the text says what is wrong with it and quotes it: as it is
written, or as the keyword it is up to case, or by the name of the glyph. -/
inductive Wording (lexeme : Str) : Str → Prop where
  | token : Wording lexeme (c!"unexpected token '" ++ lexeme ++ c!"'")
  | description : Wording lexeme (c!"unexpected token in description '" ++ lexeme ++ c!"'")
  | word : Wording lexeme (c!"unexpected `word` '" ++ lexeme ++ c!"'")
  | keyword {kw} : IsKeyword kw lexeme → Wording lexeme (c!"unexpected `" ++ kw ++ c!"` keyword")
  | ends : lexeme = c!"├" ∨ lexeme = c!"└" → Wording lexeme c!"unexpected end of file"
  | untitled : IsKeyword c!"when" lexeme ∨ IsKeyword c!"given" lexeme → Wording lexeme c!"found a condition/action without a title"
  | rootless : lexeme = c!"├" ∨ lexeme = c!"└" ∨ IsKeyword c!"when" lexeme ∨ IsKeyword c!"given" lexeme ∨ IsKeyword c!"it" lexeme →
      Wording lexeme c!"missing a root"
  | corner : lexeme = c!"└" → Wording lexeme c!"a `Corner` must be the last child"
  | tee : lexeme = c!"├" → Wording lexeme c!"a `Tee` must not be the last child"

end Bulloak.Spec
