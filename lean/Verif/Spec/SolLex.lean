import Verif.Spec.Hir
import Verif.Spec.Sol
/-!
# The tokens of Solidity

Independent of bulloak: how the Solidity compiler divides a text into tokens.  Comments and white space give no tokens; a line comment
ends at any of the six line terminators of the compiler; a pragma is one token.  Words are names, keywords and numbers; signs and points
in numbers (`1.5e-3`) and operators of several characters are divided further, which makes no difference to where tokens of other kinds are.
-/

namespace Bulloak.Spec
open Bulloak

/-- A token. -/
inductive SolTok where
  | word (s : Str)
  | sym (c : Char)
  | str (s : Str)
  | pragma (s : Str)
deriving Repr, DecidableEq

/-- What the text read so far is in the middle of. -/
inductive SolMode where
  | code
  | word (w : Str)
  | slash
  | line
  | block
  | blockStar
  | str (quote : Char) (s : Str)
  | escape (quote : Char) (s : Str)
  | pragma (s : Str)
deriving DecidableEq

/-- White space of Solidity. -/
def isSolWs (c : Char) : Bool := c == ' ' || c == '\t' || c == '\n' || c == '\r'

/-- Line terminators of Solidity. -/
def isSolEnd (c : Char) : Bool :=
  c == '\n' || c == '\r' || c == '\x0b' || c == '\x0c' || c == '\u2028' || c == '\u2029'

/-- First characters of a name. -/
def isWordStart (c : Char) : Bool :=
  (65 ≤ c.toNat && c.toNat ≤ 90) || (97 ≤ c.toNat && c.toNat ≤ 122) || c == '_' || c == '$'

/-- Characters of a name or number. -/
def isWordChar (c : Char) : Bool := isWordStart c || (48 ≤ c.toNat && c.toNat ≤ 57)

/-- Quotes. -/
def isQuote (c : Char) : Bool := c == '"' || c == '\''

/-- Punctuation, other than the slash. -/
def isSym (c : Char) : Bool := c!"(){}[];,.=<>!+-*%&|^~?:".contains c

/-- A character outside of words, comments, strings and pragmas: the token it completes, and what it begins. -/
def solStart (c : Char) : Option (List SolTok × SolMode) :=
  if isSolWs c then some ([], .code)
  else if isWordChar c then some ([], .word [c])
  else if isQuote c then some ([], .str c [])
  else if c = '/' then some ([], .slash)
  else if isSym c then some ([.sym c], .code)
  else none

/-- The next character: the tokens it completes, and what the text is in the middle of then. -/
def solStep : SolMode → Char → Option (List SolTok × SolMode)
  | .code, c => solStart c
  | .word w, c =>
    if isWordChar c then some ([], .word (w ++ [c]))
    else if w = c!"pragma" then some ([], .pragma [c])
    else (solStart c).map fun p => (.word w :: p.1, p.2)
  | .slash, c =>
    if c = '/' then some ([], .line)
    else if c = '*' then some ([], .block)
    else (solStart c).map fun p => (.sym '/' :: p.1, p.2)
  | .line, c => if isSolEnd c then some ([], .code) else some ([], .line)
  | .block, c => if c = '*' then some ([], .blockStar) else some ([], .block)
  | .blockStar, c => if c = '/' then some ([], .code) else if c = '*' then some ([], .blockStar) else some ([], .block)
  | .str q s, c =>
    if c = q then some ([.str s], .code)
    else if c = '\\' then some ([], .escape q (s ++ [c]))
    else if isSolEnd c then none
    else some ([], .str q (s ++ [c]))
  | .escape q s, c => if isSolEnd c then none else some ([], .str q (s ++ [c]))
  | .pragma s, c => if c = ';' then some ([.pragma s], .code) else some ([], .pragma (s ++ [c]))

/-- A text: the tokens it completes, and what it is in the middle of at its end. -/
def solRun : SolMode → Str → Option (List SolTok × SolMode)
  | m, [] => some ([], m)
  | m, c :: r => (solStep m c).bind fun p => (solRun p.2 r).map fun q => (p.1 ++ q.1, q.2)

/-- The end of the file. -/
def solFinish : SolMode → Option (List SolTok)
  | .code => some []
  | .word w => if w = c!"pragma" then none else some [.word w]
  | .slash => some [.sym '/']
  | .line => some []
  | .block => none
  | .blockStar => none
  | .str _ _ => none
  | .escape _ _ => none
  | .pragma _ => none

/-- The tokens of a whole file. -/
def solTokens (s : Str) : Option (List SolTok) :=
  (solRun .code s).bind fun q => (solFinish q.2).map (q.1 ++ ·)

/-- The text `s` consists of the tokens `ts`, comments and white space, and ends outside of all of them. -/
def SolReads (s : Str) (ts : List SolTok) : Prop := solRun .code s = some (ts, .code)

/-- The tokens of a statement of a test: comments have none. -/
def itemTokens : BodyItem → List SolTok
  | .comment _ => []
  | .vmSkip => [.word c!"vm", .sym '.', .word c!"skip", .sym '(', .word c!"true", .sym ')', .sym ';']

/-- The tokens of a function or modifier. -/
def fnTokens (f : HFn) : List SolTok :=
  match f.ty with
  | .modifier => [.word c!"modifier", .word f.identifier, .sym '(', .sym ')', .sym '{', .word c!"_", .sym ';', .sym '}']
  | .function => [.word c!"function", .word f.identifier, .sym '(', .sym ')', .word c!"external"] ++
      (f.modifiers.getD []).map .word ++ [.sym '{'] ++ (f.children.getD []).flatMap itemTokens ++ [.sym '}']

/-- The tokens of the file with the given version, contract and functions. -/
def fileTokens (version : Str) (skip : Bool) (name : Str) (fns : List HFn) : List SolTok :=
  [.pragma (c!" solidity " ++ version)] ++
  (if skip then [.word c!"import", .sym '{', .word c!"Test", .sym '}', .word c!"from", .str c!"forge-std/Test.sol", .sym ';'] else []) ++
  [.word c!"contract", .word name] ++ (if skip then [.word c!"is", .word c!"Test"] else []) ++ [.sym '{'] ++
  fns.flatMap fnTokens ++ [.sym '}']

/-- The words of Solidity that are keywords, units, literals or reserved. -/
def keywords : List Str :=
  [c!"abstract", c!"address", c!"after", c!"alias", c!"anonymous", c!"apply", c!"as", c!"assembly", c!"auto", c!"bool", c!"break", c!"byte",
    c!"case", c!"catch", c!"constant", c!"constructor", c!"continue", c!"contract", c!"copyof", c!"days", c!"default", c!"define", c!"delete",
    c!"do", c!"else", c!"emit", c!"enum", c!"ether", c!"event", c!"external", c!"fallback", c!"false", c!"final", c!"for", c!"function",
    c!"gwei", c!"hex", c!"hours", c!"if", c!"immutable", c!"implements", c!"import", c!"in", c!"indexed", c!"inline", c!"interface",
    c!"internal", c!"is", c!"let", c!"library", c!"macro", c!"mapping", c!"match", c!"memory", c!"minutes", c!"modifier", c!"mutable",
    c!"new", c!"null", c!"of", c!"override", c!"partial", c!"payable", c!"pragma", c!"private", c!"promise", c!"public", c!"pure",
    c!"receive", c!"reference", c!"relocatable", c!"return", c!"returns", c!"sealed", c!"seconds", c!"sizeof", c!"static", c!"storage",
    c!"string", c!"struct", c!"super", c!"supports", c!"switch", c!"this", c!"throw", c!"true", c!"try", c!"type", c!"typedef", c!"typeof",
    c!"unchecked", c!"unicode", c!"using", c!"var", c!"view", c!"virtual", c!"weeks", c!"wei", c!"while", c!"years"]

/-- Keywords, and the number and byte types with or without a size. -/
def Reserved (w : Str) : Prop :=
  w ∈ keywords ∨ ∃ t ∈ [c!"int", c!"uint", c!"bytes", c!"fixed", c!"ufixed"], t <+: w

/-- The names in a function are Solidity identifiers and not reserved, and its comments are single lines of Solidity. -/
structure ReadableFn (f : HFn) : Prop where
  name : SolIdent f.identifier ∧ ¬ Reserved f.identifier
  mods : ∀ m ∈ f.modifiers.getD [], SolIdent m ∧ ¬ Reserved m
  lines : ∀ t, .comment t ∈ f.children.getD [] → ∀ c ∈ t, isSolEnd c = false

end Bulloak.Spec
