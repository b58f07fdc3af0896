import Verif.Model.Hir
/-! # Rendering front-end errors (`crates/syntax/src/error.rs`) -/

namespace Bulloak

/-- Models `notate` (`crates/syntax/src/error.rs:64-80`).  `line - 1` and `column - 1` underflow (a panic in debug
builds, never for positions made by the tokenizer, which start at 1) is modelled by truncated
subtraction. -/
def notate (text : Str) (span : Span) : Str :=
  match (lines text)[span.start.line - 1]? with
  | some line =>
    let noteLen := max 1 (span.stop.column - span.start.column + 1)
    line ++ c!"\n" ++ spaces (span.start.column - 1) ++ List.replicate noteLen '^' ++ c!"\n"
  | none => []

/-- Models `format_error` (`crates/syntax/src/error.rs:33-54`); `kind` is the `Display` of the error kind. -/
def formatError (text kind : Str) (span : Span) : Str :=
  let divider := List.replicate 79 '•' ++ c!"\n"
  if span.start.offset = span.stop.offset ∧ span.start.offset = 0 then
    divider ++ c!"bulloak error: " ++ kind
  else
    divider ++ c!"bulloak error: " ++ kind ++ c!"\n\n" ++ notate text span ++ c!"\n"
      ++ c!"--- (line " ++ natToStr span.start.line ++ c!", column " ++ natToStr span.start.column ++ c!") ---\n"

end Bulloak
