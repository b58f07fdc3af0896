import Verif.Model.Check
import Verif.Model.Error
/-!
# Messages (`Display` of errors and violations)

Terminal colours are not modelled.
-/

namespace Bulloak

/-- Models `Display` of `tokenizer::ErrorKind` (`crates/syntax/src/tokenizer.rs:55-58`). -/
def TokError.kindText (e : TokError) : Str := c!"invalid identifier: " ++ [e.char]

/-- Models `Display` of `parser::ErrorKind` (`crates/syntax/src/parser.rs:58-111`). -/
def ParseErrorKind.text : ParseErrorKind → Str
  | .tokenUnexpected l => c!"unexpected token '" ++ l ++ c!"'"
  | .descriptionTokenUnexpected l => c!"unexpected token in description '" ++ l ++ c!"'"
  | .whenUnexpected => c!"unexpected `when` keyword"
  | .givenUnexpected => c!"unexpected `given` keyword"
  | .itUnexpected => c!"unexpected `it` keyword"
  | .wordUnexpected l => c!"unexpected `word` '" ++ l ++ c!"'"
  | .eofUnexpected => c!"unexpected end of file"
  | .treeEmpty => c!"found an empty tree"
  | .titleMissing => c!"found a condition/action without a title"
  | .treeRootless => c!"missing a root"
  | .cornerNotLastChild => c!"a `Corner` must be the last child"
  | .teeLastChild => c!"a `Tee` must not be the last child"

/-- Models `format_spans` (`crates/syntax/src/semantics.rs:65-71`). -/
def formatSpans (spans : List Span) : Str := joinSep c!", " (spans.map (fun s => natToStr s.start.line))

/-- Models `Display` of `semantics::ErrorKind` (`crates/syntax/src/semantics.rs:74-90`). -/
def SemErrorKind.text : SemErrorKind → Str
  | .identifierDuplicated spans => c!"found an identifier more than once in lines: " ++ formatSpans spans
  | .conditionEmpty => c!"found a condition with no children"
  | .nodeUnexpected => c!"unexpected child node"
  | .treeEmpty => c!"no rules where defined"

/-- Models `Display` of `combiner::ErrorKind` (`crates/foundry/src/hir/combiner.rs:55-74`). -/
def CombineError.text : CombineError → Str
  | .contractNameMismatch actual expected =>
    c!"contract name mismatch: expected '" ++ expected ++ c!"', found '" ++ actual ++ c!"'"
  | .contractNameMissing i => c!"contract name missing at tree root #" ++ natToStr i
  | .separatorMissing i => c!"separator missing at tree root #" ++ natToStr i ++
      c!". Expected to find `::` between the contract name and the function name when multiple roots exist"

/-- Models `Display` of the errors of `translate`: `tokenizer::Error` (`crates/syntax/src/tokenizer.rs:45-49`), `parser::Error`
(`crates/syntax/src/parser.rs:49-53`), `semantics::Errors` (`crates/syntax/src/semantics.rs:18`) and `combiner::Error`
(`crates/foundry/src/hir/combiner.rs:43-47`). -/
def TranslateError.show : TranslateError → Str
  | .syntax (.tokenizer text e) => formatError text e.kindText e.span
  | .syntax (.parser text e) => formatError text e.kind.text e.span
  | .syntax (.semantics text es) => es.flatMap (fun e => formatError text e.kind.text e.span)
  | .combiner text e => formatError text e.text Span.default

/-- Models `format_frontend_error` (`crates/foundry/src/check/violation.rs:116-135`).  The error of the semantic analyzer is a
`semantics::Errors`, so the downcast to `semantics::Error` at line 130 never succeeds and semantic errors end in the last branch. -/
def formatFrontendError : AnyError → Str
  | .tree (.syntax (.tokenizer _ e)) => c!"an error occurred while parsing the tree: " ++ e.kindText
  | .tree (.syntax (.parser _ e)) => c!"an error occurred while parsing the tree: " ++ e.kind.text
  | .tree (.combiner _ e) => c!"an error occurred while parsing the tree: " ++ e.text
  | .tree (.syntax (.semantics ..)) => c!"an error occurred while parsing the solidity file"
  | .solidity _ => c!"an error occurred while parsing the solidity file"

/-- Models `Display` of `ViolationKind` (`crates/foundry/src/check/violation.rs:52-90`).  Functions in order violations always have
a name. -/
def ViolationKind.text : ViolationKind → Str
  | .contractMissing n => c!"contract \"" ++ n ++ c!"\" is missing in .sol"
  | .contractNameNotMatches n m => c!"contract \"" ++ n ++ c!"\" is missing in .sol -- found \"" ++ m ++ c!"\" instead"
  | .solidityFileMissing f => c!"the tree is missing its matching Solidity file: " ++ f
  | .fileUnreadable => c!"bulloak couldn't read the file"
  | .functionOrderMismatch f _ _ => c!"incorrect position for function `" ++ f.name.getD [] ++ c!"`"
  | .matchingFunctionMissing f _ => c!"function \"" ++ f.identifier ++ c!"\" is missing in .sol"
  | .parsingFailed e => formatFrontendError e

/-- Models `help` (`crates/foundry/src/check/violation.rs:151-171`). -/
def ViolationKind.help : ViolationKind → Option Str
  | .contractMissing n => some (c!"consider adding a contract with name \"" ++ n ++ c!"\"")
  | .contractNameNotMatches n _ => some (c!"consider renaming the contract to \"" ++ n ++ c!"\"")
  | .solidityFileMissing f => some (c!"consider running `bulloak scaffold " ++ replaceAll c!".t.sol" c!".tree" f ++ c!"`")
  | .functionOrderMismatch .. => some c!"consider reordering the function in the file"
  | _ => none

/-- Models `Location::file` (`crates/foundry/src/check/location.rs:18-22`). -/
def Location.filename : Location → Str
  | .code f _ => f
  | .file f => f

/-- Models `Display` of `Location` (`crates/foundry/src/check/location.rs:25-32`). -/
def Location.show : Location → Str
  | .code f line => f ++ c!":" ++ natToStr line
  | .file f => f

/-- Models `Display` of `Violation` (`crates/foundry/src/check/violation.rs:92-107`). -/
def Violation.show (v : Violation) : Str :=
  c!"warn: " ++ v.kind.text ++ c!"\n" ++
  (match v.kind.help with
    | some h => c!"     = help: " ++ h ++ c!"\n"
    | none => []) ++
  (if v.kind.isFixable then
    c!"     + fix: run `bulloak check --fix " ++ replaceAll c!".t.sol" c!".tree" v.location.filename ++ c!"`\n"
  else []) ++
  c!"   --> " ++ v.location.show ++ c!"\n"

end Bulloak
