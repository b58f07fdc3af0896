import Verif.Model.Main
import Verif.Model.Ascii
/-!
# Running the model on the test data of the repository

Tests of the model, not proofs: the modules in this directory are generated by `conformance/gen.py` from the unit and
integration tests in `/repo`, and check with `#guard` that the model gives the results these tests expect.

The formatter is taken as the identity, so generated files are compared up to white space.  The Solidity parser is a small
reader that finds contracts and their parts by counting braces; it is enough for the files of the tests.
-/

namespace Bulloak.Conformance
attribute [local instance] asciiUcd

/-- Without white space. -/
def squeeze (s : Str) : Str := s.filter (fun c => !c.isWhitespace)

/-- `s` contains `t`. -/
def has (s t : Str) : Bool :=
  match s with
  | [] => t.isEmpty
  | c :: r => t.isPrefixOf (c :: r) || has r t

/-! ## A reader of Solidity files -/

/-- Skips white space and comments. -/
def skipBlank (a : Array Char) : Nat → Nat → Nat
  | 0, i => i
  | fuel + 1, i =>
    match a[i]? with
    | none => i
    | some c =>
      if c.isWhitespace then skipBlank a fuel (i + 1)
      else if c = '/' ∧ a[i + 1]? = some '/' then
        skipBlank a fuel (i + ((a.toList.drop i).takeWhile (· ≠ '\n')).length)
      else i

/-- The end of the word at `i`. -/
def wordEnd (a : Array Char) (i : Nat) : Nat :=
  i + ((a.toList.drop i).takeWhile (fun c => c.isAlphanum || c = '_' || c = '$')).length

/-- The text from `i` to `j`. -/
def between (a : Array Char) (i j : Nat) : Str := (a.extract i j).toList

/-- The end of the item at `i`: behind `;` outside braces or behind the closing brace. -/
def itemEnd (a : Array Char) : Nat → Nat → Nat → Nat
  | 0, i, _ => i
  | fuel + 1, i, depth =>
    let i := skipBlank a a.size i
    match a[i]? with
    | none => i
    | some '{' => itemEnd a fuel (i + 1) (depth + 1)
    | some '}' => if depth ≤ 1 then i + 1 else itemEnd a fuel (i + 1) (depth - 1)
    | some ';' => if depth = 0 then i + 1 else itemEnd a fuel (i + 1) depth
    | some _ => itemEnd a fuel (i + 1) depth

/-- The parts of a contract from `i` on, and the position behind its closing brace. -/
def readParts (a : Array Char) : Nat → Nat → List SolPart × Nat
  | 0, i => ([], i)
  | fuel + 1, i =>
    let i := skipBlank a a.size i
    match a[i]? with
    | none => ([], i)
    | some '}' => ([], i + 1)
    | some _ =>
      let w := between a i (wordEnd a i)
      let e := itemEnd a a.size i 0
      let n := skipBlank a a.size (wordEnd a i)
      let name := between a n (wordEnd a n)
      let p : SolPart :=
        if w = c!"function" then .fn ⟨.function, some name, i, e⟩
        else if w = c!"modifier" then .fn ⟨.modifier, some name, i, e⟩
        else if w = c!"constructor" then .fn ⟨.constructor, none, i, e⟩
        else .other i e
      let (ps, e) := readParts a fuel e
      (p :: ps, e)

/-- The parts of a file from `i` on. -/
def readUnit (a : Array Char) : Nat → Nat → SolUnit
  | 0, _ => []
  | fuel + 1, i =>
    let i := skipBlank a a.size i
    match a[i]? with
    | none => []
    | some _ =>
      if between a i (wordEnd a i) = c!"contract" then
        let n := skipBlank a a.size (wordEnd a i)
        let brace := n + ((a.toList.drop n).takeWhile (· ≠ '{')).length + 1
        let (ps, e) := readParts a a.size brace
        .contract ⟨some (between a n (wordEnd a n)), i, e, ps⟩ :: readUnit a fuel e
      else .other :: readUnit a fuel (itemEnd a a.size i 0)

/-- The reader as a parser; offsets are those of characters, so files must be ASCII. -/
def reader : SolParser := fun s => if s.all (fun c => c.val < 128) then some (readUnit s.toArray s.length 0) else none

/-! ## Running the program -/

/-- No formatting. -/
def env : Env := ⟨some, reader, fun c => some c.src, id⟩

/-- A directory with the given files. -/
def disk (files : List (String × String)) : Fs where
  state p := match files.find? (fun f => f.1.toList = p.str) with
    | some f => .text f.2.toList
    | none => .absent
  writable _ := true

/-- Standard output, standard error and exit code. -/
def runOn (files : List (String × String)) (args : List String) : Str × Str × Exit :=
  match program env (args.map String.toList) (disk files) with
  | .ran r => (r.stdout.flatMap (· ++ c!"\n"), r.stderr.flatMap (Note.show [] FPath.str), r.exit)
  | o => ([], [], o.exit)

/-- `scaffold` prints `expected`, up to white space. -/
def scaffolds (tree expected : String) (args : List String) : Bool :=
  let r := runOn [("t.tree", tree)] (["scaffold", "t.tree"] ++ args)
  squeeze r.1 = squeeze expected.toList && r.2.1.isEmpty && r.2.2 = .code 0

/-- `scaffold` fails and prints `expected` among other things. -/
def refuses (tree expected : String) : Bool :=
  let r := runOn [("t.tree", tree)] ["scaffold", "t.tree"]
  has r.2.1 expected.toList && r.2.2 = .code 1

/-- Standard error of `check` contains all of `expected`. -/
def complains (files : List (String × String)) (args expected : List String) : Bool :=
  let r := runOn files args
  expected.all (fun e => has r.2.1 e.toList) && r.2.2 = .code 1

/-- `check` is content. -/
def passes (files : List (String × String)) (args : List String) : Bool :=
  let r := runOn files args
  has r.1 c!"All checks completed successfully! No issues found." && r.2.1.isEmpty && r.2.2 = .code 0

/-- `check --fix --stdout` prints all of `expected`, up to white space. -/
def fixes (files : List (String × String)) (args expected : List String) : Bool :=
  let r := runOn files args
  expected.all (fun e => has (squeeze r.1) (squeeze e.toList)) && r.2.2 = .code 0

/-! ## Phases -/

/-- The tokens of a text. -/
def tokens (s : String) (ts : List Token) : Bool :=
  match tokenize s.toList with
  | .ok r => r = ts
  | _ => false

/-- The error of tokenizing a text. -/
def tokenError (s : String) (e : TokError) : Bool :=
  match tokenize s.toList with
  | .err r => r = e
  | _ => false

/-- The tree of a text. -/
def tree (s : String) (a : Ast) : Bool :=
  match tokenize s.toList with
  | .ok r => match parseTokens r with
    | .ok b => toString (repr a) == toString (repr b)
    | _ => false
  | _ => false

/-- The error of parsing a text. -/
def treeError (s : String) (e : ParseError) : Bool :=
  match tokenize s.toList with
  | .ok r => match parseTokens r with
    | .err b => e = b
    | _ => false
  | _ => false

/-- The text of the emitter. -/
def emits (cfg : Config) (s expected : String) : Bool :=
  match translate id cfg s.toList with
  | .ok r => emitRoot cfg r = expected.toList
  | _ => false

/-- The contract one tree is translated to, with `vm.skip`. -/
def translates (s : String) (r : HRoot) : Bool :=
  match parseOne id s.toList with
  | .ok a => match translateOne { Config.default with emitVmSkip := true } a with
    | .ok h => h = r
    | _ => false
  | _ => false

/-- The contract several trees are combined into, with `vm.skip`. -/
def combines (s : String) (r : HRoot) : Bool :=
  match translate id { Config.default with emitVmSkip := true } s.toList with
  | .ok h => h = r
  | _ => false

/-- The semantic errors of a text. -/
def semErrors (s : String) (es : List SemError) : Bool :=
  match parseOne id s.toList with
  | .err (.semantics _ e) => e = es
  | .ok _ => es = []
  | _ => false

/-- The modifiers of a text. -/
def modifiers (s : String) (ms : List (Str × Str)) : Bool :=
  match parseOne id s.toList with
  | .ok a => match discover a with
    | .ok m => m = ms
    | _ => false
  | _ => false

end Bulloak.Conformance
