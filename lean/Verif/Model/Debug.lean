import Verif.Model.Check
import Verif.Model.Report
/-! # The checks of a debug build

`crates/foundry/src/check/utils.rs:5` has the only `debug_assert!` of the code.  The definitions here repeat those of `Verif.Model.Check` that depend on it, as a build with debug assertions
executes them.  The second part repeats the error messages with the checks for underflow of a debug build. -/

namespace Bulloak

/-- Models `offset_to_line` (`crates/foundry/src/check/utils.rs:4-24`) with the `debug_assert!` of line 5.  `content.len()` counts bytes. -/
def offsetToLineDebug (content : Str) (start : Nat) : Res Empty Nat :=
  if byteLen content > start then offsetToLineFrom start 0 1 content else .panic

section
variable [U : Ucd]

/-- Models `check_contract_names` (`crates/foundry/src/check/rules/structural_match.rs:92-118`) in a debug build. -/
def checkContractNamesDebug (ctx : Context) (h : HContract) (s : SolContract) : Res Empty (List Violation) :=
  match s.name with
  | some name =>
    let contractName := sanitize h.identifier
    if name ≠ contractName then do
      let line ← offsetToLineDebug ctx.src s.start
      .ok [⟨.contractNameNotMatches contractName name, .code ctx.sol line⟩]
    else .ok []
  | none => .ok []

end

/-- The last loop of `check_fns_structure` (`crates/foundry/src/check/rules/structural_match.rs:188-207`) in a debug build. -/
def orderViolationsDebug (ctx : Context) (h : HContract) (s : SolContract) : List (Nat × Nat) → Res Empty (List Violation)
  | [] => .ok []
  | (hirIdx, solIdx) :: rest =>
    match h.children[hirIdx]?, s.parts[solIdx]? with
    | some _, some (.fn f) => do
      let line ← offsetToLineDebug ctx.src f.start
      let vs ← orderViolationsDebug ctx h s rest
      .ok (⟨.functionOrderMismatch f solIdx hirIdx, .code ctx.sol line⟩ :: vs)
    | some _, some (.other ..) => orderViolationsDebug ctx h s rest
    | _, _ => .panic                              -- index out of range

/-- Models `check_fns_structure` (`crates/foundry/src/check/rules/structural_match.rs:123-210`) in a debug build. -/
def checkFnsStructureDebug (ctx : Context) (h : HContract) (s : SolContract) : Res Empty (List Violation) := do
  let (present, missing) := presentAndMissing ctx s 0 h.children
  if present.isEmpty then .ok missing
  else do
    let order ← orderViolationsDebug ctx h s (unsortedPairs present)
    .ok (missing ++ order)

section
variable [U : Ucd]

/-- Models `StructuralMatcher::check` (`crates/foundry/src/check/rules/structural_match.rs:38-88`) in a debug build. -/
def checkCtxDebug (ctx : Context) : Res Empty (List Violation) :=
  let contractHir := ctx.hir.findContract
  match findContract ctx.pt with
  | none =>
    match contractHir with
    | some c => .ok [⟨.contractMissing c.identifier, .file ctx.tree⟩]
    | none => .ok []
  | some s =>
    match contractHir with
    | none => .panic                              -- contract_hir.unwrap()
    | some h => do
      let v1 ← checkContractNamesDebug ctx h s
      let v2 ← checkFnsStructureDebug ctx h s
      .ok (v1 ++ v2)

end

/-- Models `a - b` for `usize` in a build with overflow checks. -/
def subDebug (a b : Nat) : Res Empty Nat := if b ≤ a then .ok (a - b) else .panic

/-- Models `notate` (`crates/syntax/src/error.rs:64-81`) in a debug build, which checks the subtractions of lines 66 and 70 for underflow. -/
def notateDebug (text : Str) (span : Span) : Res Empty Str := do
  let index ← subDebug span.start.line 1
  match (lines text)[index]? with
  | some line => do
    let width ← subDebug span.start.column 1
    let noteLen := max 1 (span.stop.column - span.start.column + 1)
    .ok (line ++ c!"\n" ++ spaces width ++ List.replicate noteLen '^' ++ c!"\n")
  | none => .ok []

/-- Models `format_error` (`crates/syntax/src/error.rs:33-54`) in a debug build. -/
def formatErrorDebug (text kind : Str) (span : Span) : Res Empty Str :=
  let divider := List.replicate 79 '•' ++ c!"\n"
  if span.start.offset = span.stop.offset ∧ span.start.offset = 0 then
    .ok (divider ++ c!"bulloak error: " ++ kind)
  else do
    let notated ← notateDebug text span
    .ok (divider ++ c!"bulloak error: " ++ kind ++ c!"\n\n" ++ notated ++ c!"\n"
      ++ c!"--- (line " ++ natToStr span.start.line ++ c!", column " ++ natToStr span.start.column ++ c!") ---\n")

/-- Models `Display` of `semantics::Errors` (`crates/syntax/src/semantics.rs:18`) in a debug build: one message after the other. -/
def semErrorsDebug (text : Str) : List SemError → Res Empty Str
  | [] => .ok []
  | e :: es => do
    let a ← formatErrorDebug text e.kind.text e.span
    let b ← semErrorsDebug text es
    .ok (a ++ b)

/-- Models `Display` of the errors of `translate`, as `TranslateError.show`, in a debug build. -/
def TranslateError.showDebug : TranslateError → Res Empty Str
  | .syntax (.tokenizer text e) => formatErrorDebug text e.kindText e.span
  | .syntax (.parser text e) => formatErrorDebug text e.kind.text e.span
  | .syntax (.semantics text es) => semErrorsDebug text es
  | .combiner text e => formatErrorDebug text e.text Span.default

end Bulloak
