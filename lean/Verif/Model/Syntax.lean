import Verif.Model.Parser
import Verif.Model.Semantics
/-! # Splitting and parsing files (`crates/syntax/src/splitter.rs`, `crates/syntax/src/lib.rs`) -/

namespace Bulloak

/-- Splits at `"\n\n"` scanning left to right; `cur` is the piece being read. -/
def splitBlankAux (cur : Str) : Str → List Str
  | [] => [cur]
  | [c] => [cur ++ [c]]
  | c :: d :: r =>
    if c = '\n' ∧ d = '\n' then cur :: splitBlankAux [] r
    else splitBlankAux (cur ++ [c]) (d :: r)

/-- Models `text.split("\n\n")` (`crates/syntax/src/splitter.rs:12`, `TREES_SEPARATOR` at line 3). -/
def splitBlank (s : Str) : List Str := splitBlankAux [] s

/-- Models `not_only_comments` (`crates/syntax/src/splitter.rs:20-22`). -/
def notOnlyComments (tree : Str) : Bool :=
  !((lines tree).all (fun l => (stripPrefix c!"//" (trim l)).isSome))

/-- Models `split_trees` (`crates/syntax/src/splitter.rs:7-17`). -/
def splitTrees (text : Str) : List Str :=
  if trim text = [] then [[]]
  else (((splitBlank text).map trim).filter (fun s => !s.isEmpty)).filter notOnlyComments

/-- The three error types `parse_one` can return, each carrying the text it was raised on
(`crates/syntax/src/lib.rs:29-36`). -/
inductive SyntaxError where
  | tokenizer (text : Str) (e : TokError)
  | parser (text : Str) (e : ParseError)
  | semantics (text : Str) (es : List SemError)
  deriving DecidableEq, Repr

section
variable [U : Ucd]

/-- Models `parse_one` (`crates/syntax/src/lib.rs:29-36`). -/
def parseOne (order : HashOrder) (text : Str) : Res SyntaxError Ast := do
  let tokens ← (tokenize text).mapErr (SyntaxError.tokenizer text)
  let ast ← (parseTokens tokens).mapErr (SyntaxError.parser text)
  match analyze order ast with
  | [] => .ok ast
  | es => .err (.semantics text es)

/-- `collect::<Result<Vec<_>>>()` of `map f`: stops at the first error. -/
def collectRes {ε α β : Type} (f : α → Res ε β) : List α → Res ε (List β)
  | [] => .ok []
  | x :: xs => do
    let y ← f x
    let ys ← collectRes f xs
    .ok (y :: ys)

/-- Models `parse` (`crates/syntax/src/lib.rs:24-26`). -/
def parse (order : HashOrder) (text : Str) : Res SyntaxError (List Ast) :=
  collectRes (parseOne order) (splitTrees text)

end
end Bulloak
