import Verif.Props.Report
/-! # What the commands report: concrete cases and counterexamples -/

namespace Bulloak
open Spec
set_option linter.unusedSectionVars false

attribute [local instance] asciiUcd

/-- A good tree, one that is rejected by the parser, one that is rejected by the semantic analyzer, a Solidity file with another
contract; nothing can be written. -/
private def disk : Fs :=
  ⟨fun p => if p.name = c!"a.tree" then .text c!"Foo\n└── it a" else
    if p.name = c!"b.tree" then .text c!"Foo\nBar" else
    if p.name = c!"c.tree" then .text c!"Foo\n└── when a" else
    if p.name = c!"a.t.sol" then .text c!"contract Bar {}" else .absent, fun _ => false⟩

/-- A formatter that changes nothing and a parser that finds one empty contract `Bar`. -/
private def env : Env := ⟨some, fun _ => some [.contract ⟨some c!"Bar", 0, 15, []⟩], fun c => some c.src, id⟩

private def pa (n : String) : FPath := ⟨c!"x/", n.toList⟩

/-- The text on standard error. -/
private def errText (r : Run) : Str := r.stderr.flatMap (Note.show c!"os" FPath.str)

private def scaffoldArgs (files : List FPath) (w f : Bool) : ScaffoldArgs := ⟨files, w, f, c!"0.8.0", false, false⟩

set_option maxRecDepth 16000 in
/-- C61: two trees fail and are reported with their messages. -/
example : String.ofList (errText (scaffoldRun env (scaffoldArgs [pa "b.tree", pa "a.tree", pa "z.tree"] false false) disk)) =
  String.ofList (List.replicate 79 '•') ++ "\nbulloak error: unexpected `word` 'Bar'\n\nBar\n^^^\n\n--- (line 2, column 1) ---\n\nfile: x/b.tree\nos\nfile: x/z.tree\n\nwarn: Could not scaffold 2 files. Check the output above or run bulloak check, which might prove helpful.\n" := by
  cbv

set_option maxRecDepth 16000 in
/-- C61: the existing file is skipped without `-f`, and with `-f` cannot be written; neither affects the exit code. -/
example : (scaffoldRun env (scaffoldArgs [pa "a.tree"] true false) disk).stderr = [.skipped (pa "a.t.sol")] ∧
    (scaffoldRun env (scaffoldArgs [pa "a.tree"] true false) disk).exit = .code 0 ∧
    (scaffoldRun env (scaffoldArgs [pa "a.tree"] true true) disk).stderr = [.writeFailed] ∧
    (scaffoldRun env (scaffoldArgs [pa "a.tree"] true true) disk).exit = .code 0 := by
  refine ⟨?_, ?_, ?_, ?_⟩ <;> cbv

/-- A formatter that fails. -/
private def envBad : Env := { env with forgeFmt := fun _ => none }

set_option maxRecDepth 16000 in
/-- C61: after a crash the failed file before it is not reported. -/
example : (scaffoldRun envBad (scaffoldArgs [pa "b.tree", pa "a.tree"] false false) disk).stderr = [] ∧
    (scaffoldRun envBad (scaffoldArgs [pa "b.tree", pa "a.tree"] false false) disk).exit = .panicked := by
  refine ⟨?_, ?_⟩ <;> cbv

set_option maxRecDepth 16000 in
/-- C62: the report of `check` on trees it cannot work on. -/
example : String.ofList (errText (checkRun env ⟨[pa "z.tree", pa "b.tree"], false, false, false⟩ disk)) =
  "warn: bulloak couldn't read the file\n   --> x/z.tree\n\n" ++
  "warn: an error occurred while parsing the tree: unexpected `word` 'Bar'\n   --> x/b.tree\n\n" ++
  "warn: 2 checks failed\n" := by
  cbv

set_option maxRecDepth 16000 in
/-- C62: refused trees come first. -/
example : (checkRun env ⟨[pa "a.tree", pa "z.tree"], false, false, false⟩ disk).stderr.map (fun n => match n with
    | .violation v => some v.location | _ => none) =
    [some (.file c!"x/z.tree"), some (.code c!"x/a.t.sol" 1), some (.code c!"x/a.tree" 2), none] := by cbv

set_option maxRecDepth 16000 in
/-- C63: hints. -/
example : (checkRun env ⟨[pa "a.tree"], false, false, false⟩ disk).stderr.map (fun n => String.ofList (n.show [] FPath.str)) =
  ["warn: contract \"Foo\" is missing in .sol -- found \"Bar\" instead\n     = help: consider renaming the contract to \"Foo\"\n     + fix: run `bulloak check --fix x/a.tree`\n   --> x/a.t.sol:1\n\n",
  "warn: function \"test_A\" is missing in .sol\n     + fix: run `bulloak check --fix x/a.tree`\n   --> x/a.tree:2\n\n",
  "warn: 2 checks failed (run `bulloak check --fix <.tree files>` to apply 2 fixes)\n"] := by
  cbv

/-- C62: no problems. -/
example : (checkRun env ⟨[], false, false, false⟩ disk).stdout = [c!"All checks completed successfully! No issues found."] := by cbv

/-- A parser that finds the contract of the tree after fixing. -/
private def envFix : Env := { env with solParse := fun s =>
  if s = c!"contract Bar {}" then (some [.contract ⟨some c!"Bar", 0, 15, []⟩]) else (some [.contract ⟨some c!"Foo", 0, 15, []⟩]) }

set_option maxRecDepth 16000 in
/-- C62: `check --fix --stdout`. -/
example : ((checkRun envFix ⟨[pa "z.tree", pa "a.tree"], true, true, false⟩ disk).stdout.map String.ofList) =
    ["--> x/a.t.sol", "contract Foo {\n\n  function test_A() external {\n    // it a\n  }}", "<--", "\nsuccess: 2 issues fixed."] := by cbv

set_option maxRecDepth 16000 in
/-- C62: `check --fix` when the file cannot be written: the exit code is 0. -/
example : (checkRun envFix ⟨[pa "a.tree"], true, false, false⟩ disk).stderr = [.fixFailed] ∧
    (checkRun envFix ⟨[pa "a.tree"], true, false, false⟩ disk).exit = .code 0 ∧
    (checkRun envFix ⟨[pa "a.tree"], true, false, false⟩ disk).stdout = [c!"\nsuccess: 2 issues fixed."] := by
  refine ⟨?_, ?_, ?_⟩ <;> cbv

set_option maxRecDepth 16000 in
/-- C55: a tree with a condition without children is reported as a broken Solidity file. -/
example : String.ofList (errText (checkRun env ⟨[pa "c.tree"], false, false, false⟩ disk)) =
  "warn: an error occurred while parsing the solidity file\n   --> x/c.tree\n\nwarn: 1 check failed\n" := by
  cbv

/-- The violation shown for a rejected text. -/
private def shownFor (text : Str) : Option Str := match translate id .default text with
  | .err e => some (⟨.parsingFailed (.tree e), .file c!"a"⟩ : Violation).show
  | _ => none

set_option maxRecDepth 16000 in
/-- **C55** is false in general: the violation of a rejected tree does not always say what the error message says. -/
theorem C55_false : ∃ (U : Ucd) (_ : @LawfulUcd U), ¬ ∀ (order : HashOrder) (text : Str) (e : TranslateError) (p : Str),
    @translate U order .default text = .err e → ∃ kind, heading kind <+: e.show ∧ (⟨.parsingFailed (.tree e), .file p⟩ : Violation).show =
      c!"warn: an error occurred while parsing the tree: " ++ kind ++ c!"\n   --> " ++ p ++ c!"\n" := by
  refine ⟨asciiUcd, lawful_ascii, fun h => ?_⟩
  have h1 : shownFor c!"Foo\n└── when a" = some c!"warn: an error occurred while parsing the solidity file\n   --> a\n" := by cbv
  unfold shownFor at h1
  cases ht : translate id .default c!"Foo\n└── when a" with
  | ok r => rw [ht] at h1; cases h1
  | panic => rw [ht] at h1; cases h1
  | err e =>
    rw [ht] at h1
    obtain ⟨kind, _, h2⟩ := h id _ e c!"a" ht
    rw [Option.some.inj h1] at h2
    simp at h2

/-- A tree file with another extension. -/
private def diskQ : Fs := ⟨fun p => if p.name = c!"a.q" then .text c!"Foo\n└── it a" else
  if p.name = c!"a.t.sol" then .text c!"contract Bar {}" else .absent, fun _ => false⟩

set_option maxRecDepth 16000 in
private theorem opensQ : (match contextNew env false diskQ (pa "a.q") with
    | .ok c => (match checkCtx c.1 with | .ok [v, _] => some v | _ => none)
    | _ => none) = some ⟨.contractNameNotMatches c!"Foo" c!"Bar", .code c!"x/a.t.sol" 1⟩ := by cbv

/-- **C63** is false in general: for a tree file with another extension the hint names another file. -/
theorem C63_false : ∃ (U : Ucd) (_ : @LawfulUcd U), ¬ ∀ (env : Env) (skip : Bool) (fs : Fs) (t : FPath) (ctx : Context) (vs : List Violation)
    (v : Violation), @Opens U env skip fs t ctx → @checkCtx U ctx = .ok vs → v ∈ vs →
      c!"     + fix: run `bulloak check --fix " ++ t.str ++ c!"`\n" <:+: v.show := by
  refine ⟨asciiUcd, lawful_ascii, fun h => ?_⟩
  have h1 := opensQ
  cases hc : contextNew env false diskQ (pa "a.q") with
  | err e => rw [hc] at h1; cases h1
  | panic => rw [hc] at h1; cases h1
  | ok c =>
    rw [hc] at h1
    simp only at h1
    split at h1
    · rename_i v w hv
      have := h env false diskQ (pa "a.q") c.1 [v, w] v (contextNew_ok.1 hc).1 hv (by simp)
      cases h1
      have h2 := this.sublist.count_le 'q'
      revert h2
      decide +kernel
    · cases h1

end Bulloak
