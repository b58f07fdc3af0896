import Verif.Props.Order
import Verif.Props.Glyphs
import Verif.Props.Exact3
import Verif.Props.Exact2
import Verif.Props.Exact
import Verif.Props.CliCases
/-!
# One case per theorem

Each theorem that has a hypothesis on a text, a tree, a Solidity file or a run and no `example` of its own is applied here to a
concrete input.  (`C.._false` theorems contain their input in the proof.)
-/

namespace Bulloak
open Spec
set_option linter.unusedSectionVars false

section Cases
attribute [local instance] asciiUcd
local instance : LawfulUcd := lawful_ascii

/-! ## One tree: C01, C03, C06 to C10, C14, C17 to C23, C26, C27, C56 -/

/-- A top-level action with a description, nested conditions, a reverting test, an action after a nested condition, a comment. -/
def oneTree : Str := c!"Foo // c\n├── it works!\n│   └── quite well\n└── When a-b\n    ├── given c\n    │   └── It should REVERT.\n    ├── it is\n    └── it was"

/-- It is accepted. -/
def oneAst : Ast := match parseOne id oneTree with
  | .ok a => a
  | _ => .root ⟨⟨0, 0, 0⟩, ⟨0, 0, 0⟩⟩ [] []

/-- Its tokens. -/
def oneToks : List Token := match tokenize oneTree with
  | .ok ts => ts
  | _ => []

set_option maxRecDepth 16000 in
theorem oneAst_kids : (kids oneAst).length = 2 := by cbv

theorem one_parsed : parseOne id oneTree = .ok oneAst := by
  have h := oneAst_kids
  unfold oneAst at h ⊢
  cases hp : parseOne id oneTree with
  | ok a => rfl
  | err e => rw [hp] at h; cases h
  | panic => rw [hp] at h; cases h

theorem one_both : tokenize oneTree = .ok oneToks ∧ parseTokens oneToks = .ok oneAst := by
  obtain ⟨toks, h1, h2, _⟩ := parseOne_ok one_parsed
  have : oneToks = toks := by unfold oneToks; rw [h1]
  rw [this]
  exact ⟨h1, h2⟩

private theorem ho : ∀ l : List (List Span), (id l).Perm l := fun _ => .refl _

/-- C01 -/ example := C01_tokens_are_slices one_both.1
/-- C01 -/ example := C01_token_slice one_both.1
/-- C03 -/ example := C03_keywords one_both.1
/-- C04 -/ example := C04_title_errors (lexF_spec 200 (text := oneTree) (by decide +kernel))
/-- C06 -/ example := C06_root_glyphs_partial one_parsed
/-- C07 -/ example := C07_shape one_parsed
/-- C08 -/ example := C08_words_preserved one_parsed
/-- C09 -/ example := C09_nesting_is_indentation one_parsed
/-- C10 -/ example := C10_spans_nest one_parsed
/-- C14 -/ example := (C14_accepted_iff ho one_both.1 one_both.2).1 one_parsed
/-- C17 -/ example := C17_names_partial one_parsed .default
/-- C18 -/ example := C18_modifiers one_parsed .default
/-- C19 -/ example := C19_outline one_parsed .default
/-- C20, C22 -/ example := C20_C22_tests one_parsed .default
/-- C21 -/ example := C21_declared_before_use ho one_parsed .default
/-- C22 -/ example := C22_nothing_lost one_parsed .default
/-- C23 -/ example := C23_revert_names one_parsed .default
/-- C26 -/ example := C26_unique_partial ho one_parsed .default
/-- C26 -/ example := C26_exact ho one_parsed .default
/-- C56 -/ example := (C56_grammar one_both.1 oneAst).1 one_both.2
/-- C73 -/ example := C17_exact one_parsed .default
/-- C75 -/ example := C27_exact ho one_parsed .default

/-- C23: the action of the sample that makes its test a reverting one. -/
example : revertAction (.action ⟨⟨0, 1, 1⟩, ⟨0, 1, 1⟩⟩ c!"It should REVERT." []) = true :=
  (C23_revert_ascii _ (by decide +kernel) (by decide +kernel)).2 (by decide +kernel)

/-- C15, C53: a text with two complaints (an empty condition and a repeated identifier). -/
def twoWrong : Str := c!"Foo\n├── when a\n├── it b\n└── it b"

set_option maxRecDepth 16000 in
theorem twoWrong_report : (match tokenize twoWrong with
    | .ok toks => (match parseTokens toks with
      | .ok (.root s _ cs) => some (complaints s cs).length
      | _ => none)
    | _ => none) = some 2 := by cbv

theorem twoWrong_ok : ∃ toks s n cs, tokenize twoWrong = .ok toks ∧ parseTokens toks = .ok (.root s n cs) ∧ (complaints s cs).length = 2 := by
  have h := twoWrong_report
  cases ht : tokenize twoWrong with
  | err e => rw [ht] at h; cases h
  | panic => rw [ht] at h; cases h
  | ok toks =>
    rw [ht] at h
    simp only at h
    cases hp : parseTokens toks with
    | err e => rw [hp] at h; cases h
    | panic => rw [hp] at h; cases h
    | ok a =>
      rw [hp] at h
      cases a <;> first | cases h | exact ⟨toks, _, _, _, rfl, hp, Option.some.inj h⟩

/-- C15: both are reported. -/
example : ∃ es, parseOne id twoWrong = .err (.semantics twoWrong es) ∧ es.length = 2 := by
  obtain ⟨toks, s, n, cs, h1, h2, h3⟩ := twoWrong_ok
  rcases C15_all_errors ho h1 h2 with ⟨h, _⟩ | ⟨_, es, h, hp⟩
  · rw [h] at h3; cases h3
  · exact ⟨es, h, by rw [hp.length_eq, h3]⟩

/-- C15 -/ example := C15_order_independent ho (o2 := List.reverse) (fun l => l.reverse_perm) twoWrong

/-- C53: both messages. -/
example : ∃ es, ∃ outs : List Str, parseOne id twoWrong = .err (.semantics twoWrong es) ∧ outs.length = 2 ∧
    (TranslateError.syntax (.semantics twoWrong es)).show = outs.flatten := by
  obtain ⟨toks, s, n, cs, h1, h2, h3⟩ := twoWrong_ok
  rcases C15_all_errors ho h1 h2 with ⟨h, _⟩ | ⟨_, es, h, hp⟩
  · rw [h] at h3; cases h3
  · obtain ⟨outs, h4, h5⟩ := C53_semantics ho h1 h2 h
    have := C53_semantics_wording ho h1 h2 h
    exact ⟨es, outs, h, by rw [← each_len h5, hp.length_eq, h3], h4⟩

/-! ## Files: C13, C24, C25, C28 to C36, C54, C57, C58 -/

/-- A file with one tree. -/
def oneFile : Str := c!"\n" ++ oneTree ++ c!"\n"

/-- A file with two trees sharing a modifier, and a comment between them. -/
def twoFile : Str := c!"Foo::bar\n└── when a\n    ├── it x\n    └── when b\n        └── it y\n\n// note\n\nFoo::qux\n├── it works\n└── when a\n    └── given c\n        └── it should revert"

/-- Trees with different contract names. -/
def badFile : Str := c!"Foo::bar\n└── it x\n\nBar::baz\n└── it x"

set_option maxRecDepth 16000 in
theorem oneFile_asts : (astsOf oneFile).length = 1 := by cbv
set_option maxRecDepth 16000 in
theorem twoFile_asts : (astsOf twoFile).length = 2 := by cbv
set_option maxRecDepth 16000 in
theorem badFile_asts : (astsOf badFile).length = 2 := by cbv

private theorem parsed {text : Str} {k : Nat} (h : (astsOf text).length = k + 1) : parse id text = .ok (astsOf text) :=
  astsOf_eq (fun e => by rw [e] at h; cases h)

/-- The tree of `oneFile`. -/
def oneFileAst : Ast := (astsOf oneFile).headD (.root ⟨⟨0, 0, 0⟩, ⟨0, 0, 0⟩⟩ [] [])

theorem oneFile_parsed : parse id oneFile = .ok [oneFileAst] := by
  have h := parsed oneFile_asts
  have hl := oneFile_asts
  unfold oneFileAst
  generalize astsOf oneFile = l at h hl
  match l, hl with
  | [a], _ => exact h

theorem twoFile_parsed : parse id twoFile = .ok (astsOf twoFile) := parsed twoFile_asts
theorem badFile_parsed : parse id badFile = .ok (astsOf badFile) := parsed badFile_asts

set_option maxRecDepth 16000 in
theorem twoFile_contract : (contractOf twoFile).map (fun c => c.children.map HFn.identifier) =
    some [c!"whenA", c!"test_BarWhenA", c!"test_BarWhenB", c!"test_QuxWorks", c!"test_QuxRevertGiven_C"] := by cbv

/-- The contract of `twoFile`. -/
def twoContract : HContract := (contractOf twoFile).getD ⟨[], []⟩

theorem twoFile_translated : translate id .default twoFile = .ok ⟨[⟨twoContract.identifier, twoContract.children⟩]⟩ := by
  have h := twoFile_contract
  unfold twoContract
  cases hc : contractOf twoFile with
  | none => rw [hc] at h; cases h
  | some c => exact contractOf_eq hc

theorem badFile_rejected : translate id .default badFile = .err (.combiner badFile (.contractNameMismatch c!"Bar" c!"Foo")) := by
  have h : combineErrorOf badFile = some (.contractNameMismatch c!"Bar" c!"Foo") := by cbv
  unfold combineErrorOf at h
  cases ht : translate id .default badFile with
  | ok r => rw [ht] at h; cases h
  | panic => rw [ht] at h; cases h
  | err e =>
    obtain ⟨_, e', rfl, _⟩ := (C28_error_iff badFile_parsed .default e).1 ht
    rw [ht] at h
    rw [Option.some.inj h]

theorem two_trees : 2 ≤ (astsOf twoFile).length := by rw [twoFile_asts]; exact Nat.le_refl 2

theorem one_contract : translate id .default oneFile = .ok ⟨[⟨titleOf oneFileAst, expected false (kids oneFileAst)⟩]⟩ :=
  C30_single oneFile_parsed .default
theorem one_source : scaffoldSource id .default oneFile =
    .ok (solFile c!"0.8.0" false (sanitize (titleOf oneFileAst)) (written .default (expected false (kids oneFileAst)))) :=
  C33_one_tree (cfg := .default) (by decide) (by decide) oneFile_parsed

/-- C13 -/ example := (C13_parse_ok id twoFile _).1 twoFile_parsed
/-- C28 -/ example := (C28_accepted_iff twoFile_parsed .default).1 ⟨_, twoFile_translated⟩
/-- C28 -/ example := (C28_error_iff badFile_parsed .default _).1 badFile_rejected
/-- C28 -/ example := C28_message badFile_parsed badFile_rejected
/-- C29 -/ example := C29_combined twoFile_parsed two_trees .default twoFile_translated
/-- C29 -/ example := C29_tests_partial twoFile_parsed two_trees .default twoFile_translated
/-- C58 -/ example := C58_combined_consistent twoFile_parsed two_trees .default twoFile_translated
/-- C76 -/ example := C29_exact twoFile_parsed two_trees .default twoFile_translated
/-- C77 -/ example := C31_exact ho twoFile_parsed two_trees .default twoFile_translated
/-- C24 -/ example := (C24_vm_skip (order := id) (cfg := .default) (cfg' := { Config.default with emitVmSkip := true }) rfl rfl twoFile).1 _ _ twoFile_translated
/-- C24 -/ example := C24_text (cfg := .default) rfl rfl (by decide) (by decide) one_source
/-- C25 -/ example := C25_skip_modifiers (cfg := .default) rfl rfl (by decide) (by decide) one_source
/-- C25 -/ example := (C25_errors (order := id) (cfg := .default) rfl badFile _).1 ((C33_errors id .default badFile).2 _ |>.2 badFile_rejected)
/-- C32 -/ example := C32_one_contract_partial twoFile_translated
/-- C33 -/ example := C33_file (cfg := .default) (by decide) (by decide) one_source
/-- C33 -/ example := C33_source (cfg := .default) (by decide) (by decide) twoFile_translated
/-- C34 -/ example := C34_comment_line (cfg := .default) (by decide) (by decide) one_source one_contract
/-- C34 -/ example := C34_one_tree (cfg := .default) (by decide) (by decide) oneFile_parsed one_source
/-- C35 -/ example := C35_no_line_break_partial twoFile_translated
/-- C54 -/ example := @C54_tree_line _ _ _ _ _ _ _ twoFile_translated
/-- C78 -/ example := C35_exact oneFile_parsed .default

set_option maxRecDepth 16000 in
theorem twoFile_parts : (astsOf twoFile).map (fun a => splitOnceSep (titleOf a)) = [some (c!"Foo", c!"bar"), some (c!"Foo", c!"qux")] := by cbv

/-- C31: the function names are `bar` and `qux`. -/
example := C31_names_partial twoFile_parsed two_trees .default twoFile_translated (by
  intro a ha n f hs
  have : some (n, f) ∈ (astsOf twoFile).map (fun a => splitOnceSep (titleOf a)) := by
    rw [← splitOnceSep_some.2 hs]; exact List.mem_map_of_mem ha
  rw [twoFile_parts] at this
  simp only [List.mem_cons, Option.some.injEq, Prod.mk.injEq, List.not_mem_nil, or_false] at this
  rcases this with ⟨_, rfl⟩ | ⟨_, rfl⟩ <;> decide +kernel)

/-- C64: a file whose second tree is rejected. -/
def errFile : Str := c!"A\n└── it x\n\n\nB C\n└── it y"

set_option maxRecDepth 16000 in
theorem errFile_rejected : (match translate id .default errFile with
    | .err (.syntax e) => e.textOf == c!"B C\n└── it y"
    | _ => false) = true := by cbv

/-- C64 -/
example : ∃ e, translate id .default errFile = .err (.syntax e) ∧ ∃ b, b ∈ splitTrees errFile ∧ parseOne id b = .err e ∧ e.textOf = b := by
  have h := errFile_rejected
  cases ht : translate id .default errFile with
  | ok r => rw [ht] at h; cases h
  | panic => rw [ht] at h; cases h
  | err e =>
    cases e with
    | combiner t e => rw [ht] at h; cases h
    | «syntax» e =>
      obtain ⟨b, h1, h2, h3, _⟩ := C64_error_lines ht
      exact ⟨e, rfl, b, h1, h2, h3⟩

/-! ## Solidity files: C37 to C42, C65, C66, C71, C83 -/

/-- A tree with three functions. -/
def fnsA : List HFn := [
  ⟨c!"whenA", .modifier, ⟨⟨5, 2, 1⟩, ⟨9, 2, 5⟩⟩, none, none⟩,
  ⟨c!"test_WhenA", .function, ⟨⟨5, 2, 1⟩, ⟨9, 2, 5⟩⟩, some [c!"whenA"], none⟩,
  ⟨c!"test_WhenB", .function, ⟨⟨15, 4, 5⟩, ⟨19, 4, 9⟩⟩, some [c!"whenA"], none⟩]

/-- A contract with another name and a variable, the two tests swapped and the modifier missing. -/
def solA : SolContract := ⟨some c!"Fou", 0, 74, [.other 15 21,
    .fn ⟨.function, some c!"test_WhenB", 24, 48⟩, .fn ⟨.function, some c!"test_WhenA", 50, 74⟩]⟩

/-- Both. -/
def pairA : Context := ⟨c!"a.tree", ⟨[⟨c!"Foo", fnsA⟩]⟩, c!"a.t.sol",
  c!"contract Fou {\n uint x;\n function test_WhenB() {}\n function test_WhenA() {}\n}\n", [.other, .contract solA], false⟩

/-- What is reported, with the contract's parts before the functions counted. -/
def warnsOf (k : Nat) : List Violation := [
    ⟨.contractNameNotMatches c!"Foo" c!"Fou", .code c!"a.t.sol" 1⟩,
    ⟨.matchingFunctionMissing ⟨c!"whenA", .modifier, ⟨⟨5, 2, 1⟩, ⟨9, 2, 5⟩⟩, none, none⟩ 0, .code c!"a.tree" 2⟩,
    ⟨.functionOrderMismatch ⟨.function, some c!"test_WhenA", 50, 74⟩ (k + 1) 1, .code c!"a.t.sol" 4⟩]
def warnsA := warnsOf 1

theorem pairA_checked : checkCtx pairA = .ok warnsA := by cbv
theorem pairA_first : FirstContract pairA.pt solA := ⟨1, [], rfl⟩

/-- C37 -/ example := C37_name (ctx := pairA) rfl pairA_first pairA_checked
/-- C38 -/ example := C38_missing (ctx := pairA) rfl pairA_first pairA_checked
/-- C39 -/ example := C39_order (ctx := pairA) rfl pairA_first pairA_checked
/-- C39 -/ example := C39_kinds (ctx := pairA) rfl pairA_first pairA_checked
/-- C42 -/ example : checkCtx { pairA with skipModifiers := true } = .ok (warnsA.filter (fun v => !missingModifier v)) :=
  C42_skip_modifiers (ctx := pairA) rfl pairA_checked
/-- C65 -/ example := C65_helper (ctx := pairA) rfl pairA_first rfl (by decide +kernel) pairA_checked
/-- C66, C80 -/ example := (not_congr (C66_crash_iff (ctx := pairA) rfl pairA_first)).1 (by rw [pairA_checked]; simp)
/-- C71 -/ example := C71_violations (ctx := pairA) rfl pairA_first pairA_checked
/-- C83 -/ example := C83_solidity_line (ctx := pairA) rfl pairA_first pairA_checked

/-- A conforming contract behind a pragma, with a helper function in between. -/
def pairB : Context := { pairA with pt := [.other, .contract ⟨some c!"Foo", 0, 74, [.fn ⟨.modifier, some c!"whenA", 15, 21⟩,
    .fn ⟨.function, some c!"test_WhenA", 24, 48⟩, .fn ⟨.function, some c!"help", 49, 50⟩, .fn ⟨.function, some c!"test_WhenB", 50, 74⟩]⟩] }

theorem pairB_checked : checkCtx pairB = .ok [] := by cbv

/-- C37 -/ example := (C37_silent_iff (ctx := pairB) rfl).1 pairB_checked

/-- C65: it is the only contract with this name. -/
example := (C65_only_partial (ctx := pairB) (n := c!"Foo") (fns := fnsA) rfl (by
  intro s hs _
  simp only [pairB, List.mem_cons, List.not_mem_nil, or_false, reduceCtorEq, false_or, SolUnitPart.contract.injEq] at hs
  subst hs
  exact ⟨1, [], rfl⟩)).1 pairB_checked

private theorem no_first (s : SolContract) : ¬ FirstContract [.other, .other] s := by
  rintro ⟨k, rest, h⟩
  rcases k with _ | _ | _ | k <;> simp [List.replicate_succ] at h

/-- C37, C71: no contract at all. -/
example := C37_no_contract (ctx := { pairA with pt := [.other, .other] }) rfl no_first
example := C71_no_contract (ctx := { pairA with pt := [.other, .other] }) rfl no_first

/-- C40: `pairA` with a constructor before the variable. -/
def pairC : Context := { pairA with pt := [.contract ⟨some c!"Fou", 0, 74, [.fn ⟨.constructor, none, 12, 14⟩, .other 15 21,
    .fn ⟨.function, some c!"test_WhenB", 24, 48⟩, .fn ⟨.function, some c!"test_WhenA", 50, 74⟩]⟩] }

theorem pairC_first : FirstContract pairC.pt ⟨some c!"Fou", 0, 74, [.fn ⟨.constructor, none, 12, 14⟩, .other 15 21,
    .fn ⟨.function, some c!"test_WhenB", 24, 48⟩, .fn ⟨.function, some c!"test_WhenA", 50, 74⟩]⟩ := ⟨0, [], rfl⟩

theorem pairC_extends : Extends fnsA solA.parts [.fn ⟨.constructor, none, 12, 14⟩, .other 15 21,
    .fn ⟨.function, some c!"test_WhenB", 24, 48⟩, .fn ⟨.function, some c!"test_WhenA", 50, 74⟩] :=
  .extra (by simp [Matches, fnsA]) (.keep .other (.keep .fn (.keep .fn .nil)))

theorem pairC_checked : checkCtx pairC = .ok (warnsOf 2) := by cbv

/-- C40 -/ example := C40_extra_code (ctx := pairA) (ctx' := pairC) rfl rfl rfl pairA_first pairC_first rfl pairC_extends pairA_checked pairC_checked
/-- C40 -/ example := C40_silent (ctx := pairA) (ctx' := pairC) rfl rfl rfl pairA_first pairC_first rfl pairC_extends

section
variable (n : Str) (fns : List HFn)

/-- The contract with the functions `fns` in a file of its own, and `fns` as tree. -/
def ownContract : SolContract := ⟨some (sanitize n), 0, 0, fns.map partOf⟩
def ownPair : Context := ⟨c!"a.tree", ⟨[⟨n, fns⟩]⟩, c!"a.t.sol", [], [.contract (ownContract n fns)], false⟩

theorem own_written : Written (written .default fns) (ownContract n fns).parts := written_parts fns

/-! The contract generated from `twoFile`; it exists by `twoFile_translated`. -/
variable (h : translate id .default twoFile = .ok ⟨[⟨n, fns⟩]⟩)
include h

/-- C41 -/ example := C41_several_trees ho (cfg := .default) twoFile_parsed two_trees h (ctx := ownPair n fns) h
  (fun h => h) (first_single _) rfl (own_written n fns)
/-- C79 -/ example := C41_exact (cfg := .default) h (ctx := ownPair n fns) h (fun h => h) (first_single _) rfl (own_written n fns)

theorem two_distinct : ((fns.filter HFn.isFunction).map HFn.identifier).Nodup := by
  obtain ⟨n', fns', h1, h2, _⟩ := C58_combined_consistent twoFile_parsed two_trees .default h
  cases h1
  exact (List.filter_sublist.map _).nodup h2

/-- C42: the contract of `scaffold -m`, for `check -m`. -/
example := C42_scaffold (cfg := .default) rfl h (ctx := ownPair n fns) (s' := ownContract n (fns.filter HFn.isFunction))
  (ctx' := { ownPair n fns with pt := [.contract (ownContract n (fns.filter HFn.isFunction))], skipModifiers := true })
  h rfl rfl (first_single _) (first_single _) rfl rfl (own_written n fns) (written_parts (fns.filter HFn.isFunction))
  (C41_several_trees ho (cfg := .default) twoFile_parsed two_trees h (ctx := ownPair n fns) h (fun h => h) (first_single _) rfl
    (own_written n fns))

/-- C41 -/ example := C41_scaffold_partial ho (cfg := .default) h (two_distinct n fns h) (ctx := ownPair n fns) h
  (fun h => h) (first_single _) rfl (own_written n fns)

end

/-! ## The commands: C48 to C51, C55, C61 to C63, C67, C71, C84 -/

/-- A path. -/
private def at' (n : Str) : FPath := ⟨c!"x/", n⟩

/-- A good tree with a Solidity file, a tree that is rejected, a good one without Solidity file; everything can be written. -/
def someDisk : Fs :=
  ⟨fun p => if p = at' c!"a.tree" then .text oneFile else
    if p = at' c!"b.tree" then .text badFile else
    if p = at' c!"c.tree" then .text oneFile else
    if p = at' c!"a.t.sol" then .text c!"contract Bar {}" else .absent, fun _ => true⟩

/-- A formatter that changes nothing and a parser that finds one empty contract `Bar`. -/
def someEnv : Env := ⟨some, fun _ => some [.contract ⟨some c!"Bar", 0, 15, []⟩], fun c => some c.src, id⟩

/-- The three trees and a file that does not exist. -/
private def four : List FPath := [at' c!"a.tree", at' c!"b.tree", at' c!"c.tree", at' c!"z.tree"]

private def argsOf (w f : Bool) : ScaffoldArgs := ⟨four, w, f, c!"0.8.0", false, false⟩

private theorem four_named : NoTests four := by
  have h : (four.all (fun f => !(c!".t.sol".isSuffixOf f.name))) = true := by decide +kernel
  intro f hf hs
  have := List.all_eq_true.1 h f hf
  rw [List.isSuffixOf_iff_suffix.2 hs] at this
  cases this

private theorem formats {files : List FPath} {cfg : Config} {fs : Fs} : ∀ f ∈ files, ¬ Unformatted someEnv cfg fs f := by
  rintro f _ ⟨_, _, _, _, h⟩
  cases h

private theorem state_a : someDisk.state (at' c!"a.tree") = .text oneFile := by simp [someDisk]
private theorem state_b : someDisk.state (at' c!"b.tree") = .text badFile := by
  have : at' c!"b.tree" ≠ at' c!"a.tree" := by decide +kernel
  simp [someDisk, this]
private theorem state_sol : someDisk.state (at' c!"a.t.sol") = .text c!"contract Bar {}" := by
  have h1 : at' c!"a.t.sol" ≠ at' c!"a.tree" := by decide +kernel
  have h2 : at' c!"a.t.sol" ≠ at' c!"b.tree" := by decide +kernel
  have h3 : at' c!"a.t.sol" ≠ at' c!"c.tree" := by decide +kernel
  simp [someDisk, h1, h2, h3]
private theorem sol_a : SolOf (at' c!"a.tree") (at' c!"a.t.sol") := (solOf_iff _ _).2 (by decide +kernel)

private theorem good_a : Good someEnv .default someDisk (at' c!"a.tree")
    (solFile c!"0.8.0" false (sanitize (titleOf oneFileAst)) (written .default (expected false (kids oneFileAst)))) :=
  ⟨oneFile, state_a, _, _, one_source, rfl, Or.inl rfl⟩

/-- C48 -/ example : (scaffoldRun someEnv (argsOf false true) someDisk).fs = someDisk := C48_no_write someEnv rfl someDisk
/-- C49, C61: what is printed and reported for the four files. -/
example := C49_printed (a := argsOf false false) (env := someEnv) (fs := someDisk) four_named formats rfl
example := C61_reports (a := argsOf true false) (env := someEnv) (fs := someDisk) four_named formats
example := C61_which (a := argsOf true false) (env := someEnv) (fs := someDisk) four_named formats
example := C61_text (a := argsOf true false) (env := someEnv) (fs := someDisk) four_named formats (f := at' c!"b.tree") (by simp [argsOf, four])
  state_b badFile_rejected c!"os" FPath.str

/-- C49: with `-f` the existing file is replaced. -/
theorem forced : (scaffoldRun someEnv (argsOf true true) someDisk).fs.state (at' c!"a.t.sol") =
    .text (solFile c!"0.8.0" false (sanitize (titleOf oneFileAst)) (written .default (expected false (kids oneFileAst)))) := by
  refine C49_written_force (A := []) four_named formats rfl rfl rfl good_a sol_a rfl ?_
  intro g hg o _ hs
  rw [solOf_iff] at hs
  simp only [List.mem_cons, List.not_mem_nil, or_false] at hg
  rcases hg with rfl | rfl | rfl <;> revert hs <;> decide +kernel

private theorem replaced : (scaffoldRun someEnv (argsOf true true) someDisk).fs.state (at' c!"a.t.sol") ≠ someDisk.state (at' c!"a.t.sol") := by
  rw [forced, state_sol]
  intro h
  have h := congrArg List.head? (FileState.text.inj h)
  cases h

/-- C48: and it is the Solidity file of a tree, with what that yields. -/
example := C48_only_sol someEnv (argsOf true true) someDisk replaced
example := C48_contents (env := someEnv) (a := argsOf true true) (fs := someDisk) four_named replaced

/-- A formatter that always fails. -/
def failEnv : Env := { someEnv with forgeFmt := fun _ => none }

private theorem unformatted : Unformatted failEnv .default someDisk (at' c!"a.tree") := ⟨oneFile, _, state_a, one_source, rfl⟩

/-- C49, C61: then `scaffold` crashes. -/
example := C49_crash (env := failEnv) (a := argsOf true false) (fs := someDisk) four_named (A := []) rfl (by simp) unformatted
example := C61_crash (env := failEnv) (a := argsOf true false) (fs := someDisk) four_named (A := []) rfl (by simp) unformatted

/-- The context of `a.tree`. -/
def openA : Context := ⟨(at' c!"a.tree").str, ⟨[⟨titleOf oneFileAst, expected false (kids oneFileAst)⟩]⟩, (at' c!"a.t.sol").str, c!"contract Bar {}",
  [.contract ⟨some c!"Bar", 0, 15, []⟩], false⟩

theorem opened : Opens someEnv false someDisk (at' c!"a.tree") openA :=
  ⟨oneFile, _, at' c!"a.t.sol", _, _, state_a, one_contract, sol_a, state_sol, rfl, rfl⟩

/-- C71: the tree that is rejected. -/
example := C71_refused (Refused.rejected (env := someEnv) (t := at' c!"b.tree") state_b badFile_rejected)

/-- C62 -/ example := C62_reports (env := someEnv) (a := ⟨four, false, false, false⟩) (fs := someDisk) rfl

theorem openA_checked : ∃ vs, checkCtx openA = .ok vs := by
  cases h : checkCtx openA with
  | ok vs => exact ⟨vs, rfl⟩
  | err e => cases e
  | panic =>
    rcases (C66_crash_iff (ctx := openA) rfl (first_single _)).1 h with ⟨m, _, _, h⟩ | ⟨i, f, g, _, _, ⟨a, _, h⟩, _⟩
    · exact absurd h (by decide +kernel)
    · simp [openA] at h

/-- C63, C84: the hint for `x/a.tree`. -/
example : ∃ vs, checkCtx openA = .ok vs ∧ ∀ v ∈ vs, c!"     + fix: run `bulloak check --fix x/a.tree`\n   --> " <:+: v.show := by
  obtain ⟨vs, h⟩ := openA_checked
  refine ⟨vs, h, fun v hv => ?_⟩
  have := C63_fix_hint_partial (t := at' c!"a.tree") ⟨c!"a", rfl, by simp, by decide +kernel⟩ opened h hv
  exact this
example : ∃ vs, checkCtx openA = .ok vs ∧ ∀ v ∈ vs, ∃ file, c!"     + fix: run `bulloak check --fix " ++ file ++ c!"`\n   --> " ++ v.location.show ++ c!"\n" <:+ v.show := by
  obtain ⟨vs, h⟩ := openA_checked
  refine ⟨vs, h, fun v hv => ?_⟩
  obtain ⟨file, h1, _⟩ := C84_hint sol_a opened h hv
  exact ⟨file, h1⟩

/-- C63 -/ example := C63_scaffold_hint_partial (t := at' c!"a.tree") ⟨c!"a", rfl, by simp, by decide +kernel⟩

private theorem not_crashed : (checkRun someEnv ⟨[at' c!"b.tree"], false, false, false⟩ someDisk).exit ≠ .panicked := by
  rcases C51_exit (env := someEnv) (a := ⟨[at' c!"b.tree"], false, false, false⟩) (fs := someDisk) rfl with h | h | ⟨_, t, ht, ctx, h, _⟩
  · rw [h.1]; simp
  · rw [h.1]; simp
  · obtain ⟨text, hir, _, _, _, h1, h2, _⟩ := h
    rw [List.mem_singleton.1 ht, state_b] at h1
    cases h1
    have h3 := h2
    rw [show someEnv.order = id from rfl, badFile_rejected] at h3
    cases h3

/-- C55: the message of the rejected tree. -/
example := C55_tree_error_partial (env := someEnv) (a := ⟨[at' c!"b.tree"], false, false, false⟩) (fs := someDisk) rfl (t := at' c!"b.tree") (by simp) state_b badFile_rejected
  not_crashed (by simp [Semantic]) c!"os" FPath.str

/-- C67: with the entries of the hash map reversed. -/
example := C67_scaffold (env := someEnv) (order' := List.reverse) ho (fun l => l.reverse_perm) (argsOf true true) someDisk
example := C67_check (env := someEnv) (order' := List.reverse) ho (fun l => l.reverse_perm) ⟨four, false, false, false⟩ someDisk c!"os" FPath.str

/-! ### `check --fix` -/

/-- A tree, and a Solidity file with a wrong name and nothing in it. -/
def fixDisk : Fs :=
  ⟨fun p => if p.name = c!"a.tree" then .text c!"Foo\n└── it a" else
    if p.name = c!"a.t.sol" then .text c!"contract Bar {}" else .absent, fun _ => true⟩

/-- A parser that reads the file before and after renaming. -/
def fixEnv : Env := { someEnv with solParse := fun s =>
  if s = c!"contract Bar {}" then (some [.contract ⟨some c!"Bar", 0, 15, []⟩]) else (some [.contract ⟨some c!"Foo", 0, 15, []⟩]) }

private def fixArgs (out : Bool) : CheckArgs := ⟨[at' c!"z.tree", at' c!"a.tree"], true, out, false⟩

/-- What is written. -/
def fixedText : Str := c!"contract Foo {\n\n  function test_A() external {\n    // it a\n  }}"

set_option maxRecDepth 16000 in
private theorem fix_runs : (match contextNew fixEnv false fixDisk (at' c!"a.tree") with
    | .ok c => (match fixContext fixEnv.solParse c.1 with
      | .ok r => some (r.1.src, r.2)
      | _ => none)
    | _ => none) = some (fixedText, 2) := by cbv

private theorem fix_opened : ∃ ctx, Opens fixEnv false fixDisk (at' c!"a.tree") ctx ∧ FixedTo fixEnv ctx fixedText := by
  have h := fix_runs
  cases hc : contextNew fixEnv false fixDisk (at' c!"a.tree") with
  | err e => rw [hc] at h; cases h
  | panic => rw [hc] at h; cases h
  | ok c =>
    rw [hc] at h
    simp only at h
    cases hf : fixContext fixEnv.solParse c.1 with
    | err e => cases e
    | panic => rw [hf] at h; cases h
    | ok r =>
      rw [hf] at h
      simp only [Option.some.injEq, Prod.mk.injEq] at h
      refine ⟨c.1, (contextNew_ok.1 hc).1, r.1, r.2, hf, ?_⟩
      show some r.1.src = some fixedText
      rw [h.1]

private theorem z_closed (ctx : Context) : ¬ Opens fixEnv false fixDisk (at' c!"z.tree") ctx := by
  rintro ⟨text, _, _, _, _, h, _⟩
  have : fixDisk.state (at' c!"z.tree") = .absent := by decide +kernel
  rw [this] at h
  cases h

/-- C50: the file of the second tree is rewritten. -/
theorem fix_written : (checkRun fixEnv (fixArgs false) fixDisk).fs.state (at' c!"a.t.sol") = .text fixedText := by
  obtain ⟨ctx, h1, h2⟩ := fix_opened
  exact C50_written (A := [at' c!"z.tree"]) (B := []) rfl rfl rfl (by
    intro g hg ctx h
    rw [List.mem_singleton.1 hg] at h
    exact absurd h (z_closed ctx)) (by simp) h1 h2 sol_a rfl

/-- C50 -/
example := C50_only_sol (env := fixEnv) (a := fixArgs false) (fs := fixDisk) (p := at' c!"a.t.sol") (by rw [fix_written]; decide +kernel)

private theorem fix_no_crash : ∀ t ∈ (fixArgs true).files, ∀ ctx, Opens fixEnv (fixArgs true).skipModifiers fixDisk t ctx → ¬ FixCrashes fixEnv ctx := by
  intro t ht ctx h
  simp only [fixArgs, List.mem_cons, List.not_mem_nil, or_false] at ht
  rcases ht with rfl | rfl
  · exact absurd h (z_closed ctx)
  · obtain ⟨ctx', h1, c2, n, h2, _⟩ := fix_opened
    have e1 := contextNew_ok.2 ⟨h1, rfl⟩
    have e2 := contextNew_ok.2 ⟨h, rfl⟩
    rw [show (fixArgs true).skipModifiers = false from rfl, e1] at e2
    cases e2
    rintro (h3 | ⟨_, _, h3, h4⟩)
    · rw [h2] at h3; cases h3
    · cases h4

/-- C51 -/ example := C51_exit_fix (env := fixEnv) (a := fixArgs true) (fs := fixDisk) rfl
/-- C62 -/ example := C62_fix_reports (env := fixEnv) (a := fixArgs true) (fs := fixDisk) rfl fix_no_crash

/-! ## A tree of conditions only: C27, C41 -/

/-- Conditions only, with the actions before the nested conditions. -/
def condTree : Str := c!"Foo\n├── when a\n│   ├── it x\n│   └── when b\n│       └── it y\n└── given c\n    └── it z"

set_option maxRecDepth 16000 in
theorem condTree_asts : (astsOf condTree).length = 1 := by cbv

set_option maxRecDepth 16000 in
theorem condTree_split : splitTrees condTree = [condTree] := by cbv

set_option maxRecDepth 16000 in
theorem condTree_conditions : ((astsOf condTree).all (fun t => (kids t).all (fun a => !a.isAction))) = true := by cbv

theorem cond_parsed : ∃ a, parse id condTree = .ok [a] ∧ parseOne id condTree = .ok a ∧ ∀ k ∈ kids a, k.isAction = false := by
  have h := parsed condTree_asts
  have hl := condTree_asts
  have hc := condTree_conditions
  generalize astsOf condTree = l at h hl hc
  match l, hl with
  | [a], _ =>
    refine ⟨a, h, ?_, fun k hk => by
      simp only [List.all_cons, List.all_nil, Bool.and_true] at hc
      simpa using List.all_eq_true.1 hc k hk⟩
    have h' := (C13_parse_ok id condTree _).1 h
    rw [condTree_split] at h'
    cases h' with
    | cons h _ => exact h

section
variable (a : Ast) (h1 : parse id condTree = .ok [a]) (h2 : parseOne id condTree = .ok a) (h3 : ∀ k ∈ kids a, k.isAction = false)
include h1 h2 h3

/-- C27: the tree of `condTree`, which exists by `cond_parsed`. -/
example := C27_order_partial h2 .default

/-- C41 -/ example (n : Str) (fns : List HFn) (h : translate id .default condTree = .ok ⟨[⟨n, fns⟩]⟩) :=
  C41_conditions_only ho (cfg := .default) h1 h3 h
  (ctx := ownPair n fns) h (fun h => h) (first_single _) rfl (own_written n fns)

end

end Cases
end Bulloak
