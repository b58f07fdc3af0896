import Verif.Spec.SolLex
import Verif.Spec.Fix
/-!
# Solidity files

Which layouts (see Spec/Fix.lean) a Solidity parser has to read as such, in terms of tokens.  What a valid contract part, contract header and
so on is beyond that is left to a `SolGrammar`; theorems are about all grammars that have the parts bulloak writes.
-/

namespace Bulloak.Spec
open Bulloak

/-- Opening brackets. -/
def isOpen (t : SolTok) : Bool := t == .sym '(' || t == .sym '{' || t == .sym '['

/-- Closing brackets. -/
def isClose (t : SolTok) : Bool := t == .sym ')' || t == .sym '}' || t == .sym ']'

/-- Takes the first part of a contract off a list of tokens, `d` brackets being open: up to the first `;` outside of brackets, or the `}`
that closes the last bracket. -/
def takePart : Nat → List SolTok → Option (List SolTok × List SolTok)
  | _, [] => none
  | d, t :: r =>
    if t = .sym ';' ∧ d = 0 then some ([t], r)
    else if t = .sym '}' ∧ d = 1 then some ([t], r)
    else if isClose t ∧ d = 0 then none
    else (takePart (if isOpen t then d + 1 else if isClose t then d - 1 else d) r).map fun p => (t :: p.1, p.2)

/-- The tokens are one part of a contract. -/
def OnePart (ts : List SolTok) : Prop := takePart 0 ts = some (ts, [])

/-- The kind and name of a function, modifier or constructor; `none` for other parts. -/
def declared : List SolTok → Option (SolFnTy × Option Str)
  | .word w :: .word n :: _ =>
    if w = c!"function" then some (.function, some n) else if w = c!"modifier" then some (.modifier, some n) else none
  | .word w :: .sym '(' :: _ =>
    if w = c!"constructor" then some (.constructor, none) else if w = c!"fallback" then some (.fallback, none)
    else if w = c!"receive" then some (.receive, none) else none
  | _ => none

/-- The words that begin a contract. -/
def contractWords : List Str := [c!"contract", c!"interface", c!"library", c!"abstract"]

/-- The name in the header of a contract. -/
def headerName : List SolTok → Option Str
  | .word w :: .word n :: r =>
    if w = c!"abstract" then (match r with | .word m :: _ => some m | _ => none) else some n
  | _ => none

/-- The text begins with a token. -/
def StartsTok (s : Str) : Prop := ∃ c r, s = c :: r ∧ (isWordChar c = true ∨ isQuote c = true ∨ isSym c = true)

/-- The text ends with a brace or semicolon. -/
def EndsPart (s : Str) : Prop := ∃ r c, s = r ++ [c] ∧ (c = '}' ∨ c = ';')

/-- What is valid in front of a contract, as its header, as one of its parts, and behind it. -/
structure SolGrammar where
  before : List SolTok → Prop
  header : List SolTok → Prop
  part : List SolTok → Prop
  rest : List SolTok → Prop

/-- The text of a part is that of a valid part of its kind and name. -/
def Seg.Fits (G : SolGrammar) (s : Seg) : Prop :=
  StartsTok s.text ∧ EndsPart s.text ∧ ∃ ts, SolReads s.text ts ∧ OnePart ts ∧ G.part ts ∧
    declared ts = match s with
      | .fn ty name _ => some (ty, name)
      | .other _ => none

/-- Of the line terminators, the text only has the usual two; parsers do not agree about the others. -/
def UsualEnds (s : Str) : Prop := ∀ c ∈ s, isSolEnd c = true → c = '\n' ∨ c = '\r'

/-- The layout is that of a valid file. -/
structure Layout.Fits (G : SolGrammar) (L : Layout) : Prop where
  plain : UsualEnds L.text
  before : ∃ ts, SolReads L.before ts ∧ (∀ k ∈ contractWords, .word k ∉ ts) ∧ G.before ts
  header : ∃ k ts, k ∈ contractWords ∧ StartsTok L.header ∧ SolReads (L.header ++ ['{']) (.word k :: ts ++ [.sym '{']) ∧ .sym '{' ∉ ts ∧
    headerName (.word k :: ts) = L.name ∧ G.header (.word k :: ts)
  lead : SolReads L.lead []
  segs : ∀ p ∈ L.segs, p.1.Fits G ∧ SolReads p.2 []
  rest : ∃ ts, solTokens L.rest = some ts ∧ G.rest ts

/-- The parser reads valid files correctly. -/
def Reader (P : SolParser) (G : SolGrammar) : Prop := ∀ L, L.Fits G → ReadsAs P L

/-- The tokens of what is in front of a generated contract. -/
def headTokens (version : Str) (skip : Bool) : List SolTok :=
  [.pragma (c!" solidity " ++ version)] ++
  (if skip then [.word c!"import", .sym '{', .word c!"Test", .sym '}', .word c!"from", .str c!"forge-std/Test.sol", .sym ';'] else [])

/-- What bulloak writes is valid. -/
structure SolGrammar.HasGenerated (G : SolGrammar) : Prop where
  header : ∀ (skip : Bool) n, SolIdent n → ¬ Reserved n →
    G.header ([.word c!"contract", .word n] ++ if skip then [.word c!"is", .word c!"Test"] else [])
  part : ∀ f, ReadableFn f → G.part (fnTokens f)
  rest : G.rest []

/-- The formatter keeps the tokens of generated files, except perhaps for the text of the pragma, which stays valid, and adds no unusual line
terminators. -/
def KeepsFiles (fmt : Str → Option Str) (G : SolGrammar) : Prop :=
  ∀ src out version skip name fns, fmt src = some out → solTokens src = some (fileTokens version skip name fns) →
    G.before (headTokens version skip) → UsualEnds src →
    ∃ version', UsualEnds out ∧ solTokens out = some (fileTokens version' skip name fns) ∧ G.before (headTokens version' skip)

end Bulloak.Spec
