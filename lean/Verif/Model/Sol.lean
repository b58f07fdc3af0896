import Verif.Model.Hir
/-!
# Generating Solidity

Models `crates/foundry/src/sol/translator.rs` (HIR → parse tree), `crates/foundry/src/sol/fmt.rs` (parse
tree → text, then comment clean-up) and `crates/foundry/src/scaffold/emitter.rs` (HIR → text, used by
`check --fix`).

Simplifications: only the parse tree nodes the translator can build are modelled, and their source
locations (`bump`) are dropped since `Formatter::emit` never reads them.  The `Display` impls of
`solang_parser` for these nodes are part of the trusted base; they are written out in `Pt*.show`.
-/

namespace Bulloak

/-- Statements the translator builds: the comment pseudo-variable
(`crates/foundry/src/sol/translator.rs:589-631`), the `vm.skip(true)` call (`634-677`), and the modifier
placeholder (`207-227`). -/
inductive PtStmt where
  | commentVar (text : Str)
  | vmSkip
  | underscore
  deriving DecidableEq, Repr

/-- Function attributes the translator builds (`crates/foundry/src/sol/translator.rs:166-186`). -/
inductive PtAttr where
  | external
  | modifierUse (name : Str)
  deriving DecidableEq, Repr

/-- `pt::FunctionDefinition` as built at `crates/foundry/src/sol/translator.rs:544-561`. -/
structure PtFn where
  ty : FnTy
  name : Str
  attributes : List PtAttr
  body : List PtStmt
  deriving DecidableEq, Repr

/-- `pt::ContractDefinition` as built at `crates/foundry/src/sol/translator.rs:484-490`. -/
structure PtContract where
  name : Str
  base : List Str
  parts : List PtFn
  deriving DecidableEq, Repr

/-- `SourceUnitPart` as built at `crates/foundry/src/sol/translator.rs:351-415`. -/
inductive PtPart where
  | pragma (version : Str)
  | importTest
  | contract (c : PtContract)
  deriving DecidableEq, Repr

/-- Models `gen_function_attr` (`crates/foundry/src/sol/translator.rs:166-186`). -/
def genFnAttr (f : HFn) : List PtAttr :=
  match f.ty with
  | .modifier => []
  | .function => .external :: (f.modifiers.getD []).map .modifierUse

/-- Models `visit_statement` / `visit_comment` on a body node
(`crates/foundry/src/sol/translator.rs:589-677`). -/
def genStmt : BodyItem → PtStmt
  | .comment t => .commentVar t
  | .vmSkip => .vmSkip

/-- Models `gen_function_body` (`crates/foundry/src/sol/translator.rs:299-315`). -/
def genFnBody (f : HFn) : List PtStmt :=
  match f.ty with
  | .modifier => [.underscore]
  | .function => (f.children.getD []).map genStmt

/-- Models `visit_function` (`crates/foundry/src/sol/translator.rs:526-562`). -/
def ptFunction (f : HFn) : PtFn := ⟨f.ty, f.identifier, genFnAttr f, genFnBody f⟩

/-- Models `visit_contract` (`crates/foundry/src/sol/translator.rs:438-493`). -/
def ptContract (cfg : Config) (c : HContract) : PtContract :=
  { name := c.identifier
    base := if cfg.emitVmSkip then [c!"Test"] else []
    parts := (c.children.filter (fun f => !(f.isModifier && cfg.skipModifiers))).map ptFunction }

/-- Models `Translator::translate` / `visit_root` (`crates/foundry/src/sol/translator.rs:351-415`). -/
def ptTranslate (cfg : Config) (r : HRoot) : List PtPart :=
  .pragma cfg.solidityVersion :: (if cfg.emitVmSkip then [.importTest] else [])
    ++ r.children.map (fun c => .contract (ptContract cfg c))

/-! ## Formatter -/

/-- `Display` of a statement followed by the `;` handling of `visit_statement` / `visit_expr`
(`crates/foundry/src/sol/fmt.rs:188-238`). -/
def PtStmt.show : PtStmt → Str
  | .commentVar t => c!"string __bulloak_comment__ = \"" ++ t ++ c!"\";"
  | .vmSkip => c!"vm.skip(true);"
  | .underscore => c!"_;"

/-- `Display` of a function attribute (`crates/foundry/src/sol/fmt.rs:156-164`). -/
def PtAttr.show : PtAttr → Str
  | .external => c!"external"
  | .modifierUse m => m

/-- `Display` of `FunctionTy`. -/
def FnTy.show : FnTy → Str
  | .function => c!"function"
  | .modifier => c!"modifier"

/-- Models `visit_statement` on a block (`crates/foundry/src/sol/fmt.rs:193-213`). -/
def fmtBlock (stmts : List PtStmt) : Str :=
  c!"{\n" ++ joinSep c!"\n" (stmts.map PtStmt.show) ++ (if stmts.isEmpty then [] else c!"\n") ++ c!"}"

/-- Models `visit_function` (`crates/foundry/src/sol/fmt.rs:134-186`); there are no parameters and no
return values, and the body is always present. -/
def fmtFunction (f : PtFn) : Str :=
  f.ty.show ++ c!" " ++ f.name ++ c!"()"
    ++ (if f.attributes.isEmpty then [] else c!" " ++ joinSep c!" " (f.attributes.map PtAttr.show))
    ++ c!" " ++ fmtBlock f.body

section
variable [U : Ucd]

/-- Models `visit_contract` (`crates/foundry/src/sol/fmt.rs:77-112`). -/
def fmtContract (c : PtContract) : Str :=
  c!"contract " ++ sanitize c.name ++ c!" "
    ++ (if c.base.isEmpty then [] else c!"is " ++ joinSep c!", " c.base ++ c!" ")
    ++ c!"{" ++ joinSep c!"\n\n" (c.parts.map fmtFunction) ++ c!"}"

/-- Models `visit_source_unit_part` (`crates/foundry/src/sol/fmt.rs:55-75`). -/
def fmtPart : PtPart → Str
  | .pragma v => c!"// SPDX-License-Identifier: UNLICENSED\npragma solidity " ++ v ++ c!";"
  | .importTest => c!"import {Test} from \"forge-std/Test.sol\";"
  | .contract c => fmtContract c

/-- Models `visit_source_unit` (`crates/foundry/src/sol/fmt.rs:43-53`). -/
def fmtSourceUnit (parts : List PtPart) : Str := joinSep c!"\n" (parts.map fmtPart)

end

/-- The literal prefix of the clean-up regex (`crates/foundry/src/sol/fmt.rs:318`). -/
def commentMarker : Str := c!"string __bulloak_comment__ = \""

/-- Splits at the last occurrence of `";` (the greedy `(.*)";` of the regex): what precedes it and what
follows it. -/
def splitLastQuote : Str → Option (Str × Str)
  | [] => none
  | c :: r =>
    match splitLastQuote r with
    | some (a, b) => some (c :: a, b)
    | none => if c = '"' ∧ r.head? = some ';' then some ([], r.drop 1) else none

/-- The regex replacement on one line (`.` does not match a line feed): at the leftmost position where
the marker matches and a `";` follows, replace by `// ` and the text between.  The remainder of the
line contains no further `";`, hence no further match. -/
def cleanupLine (line : Str) : Str :=
  match (stripPrefix commentMarker line).bind splitLastQuote with
  | some (text, rest) => c!"// " ++ text ++ rest
  | none =>
    match line with
    | [] => []
    | c :: r => c :: cleanupLine r

/-- Models `cleanup_comments` (`crates/foundry/src/sol/fmt.rs:316-321`). -/
def cleanupComments (source : Str) : Str := joinSep c!"\n" ((splitNlAux [] source).map cleanupLine)

section
variable [U : Ucd]

/-- Models `Formatter::emit` (`crates/foundry/src/sol/fmt.rs:30-36`). -/
def emitSource (parts : List PtPart) : Str := cleanupComments (fmtSourceUnit parts)

/-! ## The emitter used by `check --fix` -/

/-- `indent()` (`crates/foundry/src/scaffold/emitter.rs:42-44`, `INTERNAL_DEFAULT_INDENTATION = 2`). -/
def indent1 : Str := spaces 2
/-- `indent().repeat(2)`. -/
def indent2 : Str := spaces 4

/-- Models `emit_modifier` (`crates/foundry/src/scaffold/emitter.rs:112-121`). -/
def emitModifier (name : Str) : Str :=
  indent1 ++ c!"modifier " ++ name ++ c!"() {\n" ++ indent2 ++ c!"_;\n" ++ indent1 ++ c!"}\n" ++ c!"\n"

/-- Models `emit_fn_header` (`crates/foundry/src/scaffold/emitter.rs:129-170`). -/
def emitFnHeader (f : HFn) : Str :=
  (match f.modifiers with
    | some _ => indent1 ++ c!"function " ++ f.identifier ++ c!"()\n" ++ indent2 ++ c!"external\n"
    | none => indent1 ++ c!"function " ++ f.identifier ++ c!"()" ++ c!" external")
  ++ (match f.modifiers with
    | some ms => ms.flatMap (fun m => indent2 ++ m ++ c!"\n")
    | none => [])
  ++ (match f.modifiers with
    | some _ => indent1 ++ c!"{\n"
    | none => c!" {\n")

/-- Models `visit_comment` / `visit_statement` (`crates/foundry/src/scaffold/emitter.rs:263-292`). -/
def emitBodyItem : BodyItem → Str
  | .comment t => indent2 ++ c!"// " ++ t ++ c!"\n"
  | .vmSkip => indent2 ++ c!"vm.skip(true);\n"

/-- Models `visit_function` (`crates/foundry/src/scaffold/emitter.rs:234-261`). -/
def emitFunction (f : HFn) : Str :=
  match f.ty with
  | .modifier => emitModifier f.identifier
  | .function => emitFnHeader f ++ (f.children.getD []).flatMap emitBodyItem ++ indent1 ++ c!"}\n\n"

/-- Models `visit_contract` with `emit_contract_header` (`crates/foundry/src/scaffold/emitter.rs:90-102`,
`211-232`): `pop` drops the last character. -/
def emitContract (c : HContract) : Str :=
  (c!"contract " ++ sanitize c.identifier ++ c!" {\n" ++ c.children.flatMap emitFunction).dropLast ++ c!"}"

/-- Models `visit_root` (`crates/foundry/src/scaffold/emitter.rs:186-209`). -/
def emitRoot (cfg : Config) (r : HRoot) : Str :=
  c!"// SPDX-License-Identifier: UNLICENSED\n" ++ c!"pragma solidity " ++ cfg.solidityVersion ++ c!";\n\n"
    ++ r.children.flatMap emitContract

/-- Models `scaffold` (`crates/foundry/src/scaffold/mod.rs:17-25`) up to the external formatter: the text
passed to `forge_fmt::fmt`. -/
def scaffoldSource (order : HashOrder) (cfg : Config) (text : Str) : Res TranslateError Str := do
  let hir ← translate order cfg text
  .ok (emitSource (ptTranslate cfg hir))

/-- Models `scaffold` (`crates/foundry/src/scaffold/mod.rs:17-25`).  `forgeFmt` is `forge_fmt::fmt` (external):
`none` means it returned an error, on which `expect` panics. -/
def scaffold (forgeFmt : Str → Option Str) (order : HashOrder) (cfg : Config) (text : Str) :
    Res TranslateError Str := do
  let source ← scaffoldSource order cfg text
  Res.unwrap (forgeFmt source)

end
end Bulloak
