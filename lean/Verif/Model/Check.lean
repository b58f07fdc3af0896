import Verif.Model.Sol
/-!
# `bulloak check` (`crates/foundry/src/check`)

The Solidity parser (`forge_fmt::parse`, i.e. solang) is external.  `SolUnit` is what the checks read from
its parse tree: for every contract and contract part its name, kind and byte range.
-/

namespace Bulloak

/-- `pt::FunctionTy`. -/
inductive SolFnTy where
  | constructor | function | fallback | receive | modifier
  deriving DecidableEq, Repr

/-- What is read from `pt::FunctionDefinition`: kind, optional name and byte range (`loc()` of
`CodeLocationExt`, which covers header and body). -/
structure SolFn where
  ty : SolFnTy
  name : Option Str
  start : Nat
  stop : Nat
  deriving DecidableEq, Repr

/-- `pt::ContractPart`: a function or anything else (variables, structs, ...). -/
inductive SolPart where
  | fn (f : SolFn)
  | other (start stop : Nat)
  deriving DecidableEq, Repr

/-- `loc()` of a contract part. -/
def SolPart.start : SolPart → Nat
  | .fn f => f.start
  | .other s _ => s
/-- `loc()` of a contract part. -/
def SolPart.stop : SolPart → Nat
  | .fn f => f.stop
  | .other _ e => e

/-- What is read from `pt::ContractDefinition`. -/
structure SolContract where
  name : Option Str
  start : Nat
  stop : Nat
  parts : List SolPart
  deriving DecidableEq, Repr

/-- `pt::SourceUnitPart`: a contract (of any type) or anything else. -/
inductive SolUnitPart where
  | contract (c : SolContract)
  | other
  deriving DecidableEq, Repr

/-- `pt::SourceUnit`. -/
abbrev SolUnit := List SolUnitPart

/-- Models `find_contract` (`crates/foundry/src/sol/mod.rs:20-25`). -/
def findContract (u : SolUnit) : Option SolContract :=
  u.findSome? (fun p => match p with
    | .contract c => some c
    | .other => none)

/-- Models `fn_types_match` (`crates/foundry/src/sol/mod.rs:62-67`). -/
def fnTypesMatch (h : FnTy) (s : SolFnTy) : Bool :=
  match h with
  | .function => s = .function
  | .modifier => s = .modifier

/-- Models `fns_match` (`crates/foundry/src/sol/mod.rs:47-54`). -/
def fnsMatch (h : HFn) (s : SolFn) : Bool :=
  match s.name with
  | some n => n = h.identifier && fnTypesMatch h.ty s.ty
  | none => false

/-- The search of `find_matching_fn` from index `idx` on. -/
def findMatchingFnFrom (h : HFn) (idx : Nat) : List SolPart → Option (Nat × SolFn)
  | [] => none
  | .fn f :: ps => if fnsMatch h f then some (idx, f) else findMatchingFnFrom h (idx + 1) ps
  | .other .. :: ps => findMatchingFnFrom h (idx + 1) ps

/-- Models `find_matching_fn` (`crates/foundry/src/sol/mod.rs:29-42`). -/
def findMatchingFn (c : SolContract) (h : HFn) : Option (Nat × SolFn) := findMatchingFnFrom h 0 c.parts

/-- Errors wrapped in `ViolationKind::ParsingFailed`: a tree error or "Failed to parse {file}"
(`crates/foundry/src/check/context.rs:56-74`). -/
inductive AnyError where
  | tree (e : TranslateError)
  | solidity (file : Str)
  deriving DecidableEq, Repr

/-- Models `ViolationKind` (`crates/foundry/src/check/violation.rs:52-90`). -/
inductive ViolationKind where
  | contractMissing (name : Str)
  | contractNameNotMatches (treeName solName : Str)
  | solidityFileMissing (file : Str)
  | fileUnreadable
  | functionOrderMismatch (f : SolFn) (solIdx hirIdx : Nat)
  | matchingFunctionMissing (f : HFn) (hirIdx : Nat)
  | parsingFailed (e : AnyError)
  deriving DecidableEq, Repr

/-- Models `Location` (`crates/foundry/src/check/location.rs:8-14`). -/
inductive Location where
  | code (file : Str) (line : Nat)
  | file (file : Str)
  deriving DecidableEq, Repr

/-- Models `Violation` (`crates/foundry/src/check/violation.rs:25-32`). -/
structure Violation where
  kind : ViolationKind
  location : Location
  deriving DecidableEq, Repr

/-- Models `Context` (`crates/foundry/src/check/context.rs:29-46`); `comments` is only passed on to the
formatter and not modelled; of `cfg` only `skip_modifiers` is read. -/
structure Context where
  tree : Str
  hir : HRoot
  sol : Str
  src : Str
  pt : SolUnit
  skipModifiers : Bool
  deriving DecidableEq, Repr

/-- The loop of `offset_to_line_column` (`crates/foundry/src/check/utils.rs:8-16`) from character index
`idx`, with the line counter. -/
def offsetToLineFrom (start : Nat) : Nat → Nat → Str → Res Empty Nat
  | _, _, [] => .panic                            -- unreachable!
  | idx, line, c :: r =>
    let line := if c = '\n' then line + 1 else line
    if start < idx then .ok line else offsetToLineFrom start (idx + 1) line r

/-- Models `offset_to_line` (`crates/foundry/src/check/utils.rs:4-24`).  The `debug_assert!` is not part of
release builds and not modelled. -/
def offsetToLine (content : Str) (start : Nat) : Res Empty Nat := offsetToLineFrom start 0 1 content

section
variable [U : Ucd]

/-- Models `check_contract_names` (`crates/foundry/src/check/rules/structural_match.rs:92-118`). -/
def checkContractNames (ctx : Context) (h : HContract) (s : SolContract) : Res Empty (List Violation) :=
  match s.name with
  | some name =>
    let contractName := sanitize h.identifier
    if name ≠ contractName then do
      let line ← offsetToLine ctx.src s.start
      .ok [⟨.contractNameNotMatches contractName name, .code ctx.sol line⟩]
    else .ok []
  | none => .ok []

end

/-- The first loop of `check_fns_structure` (`crates/foundry/src/check/rules/structural_match.rs:132-164`)
from index `hirIdx`: the present pairs and the missing-function violations. -/
def presentAndMissing (ctx : Context) (s : SolContract) : Nat → List HFn → List (Nat × Nat) × List Violation
  | _, [] => ([], [])
  | hirIdx, f :: fs =>
    let (present, missing) := presentAndMissing ctx s (hirIdx + 1) fs
    match findMatchingFn s f with
    | some (solIdx, _) => ((hirIdx, solIdx) :: present, missing)
    | none =>
      if ctx.skipModifiers && f.isModifier then (present, missing)
      else (present, ⟨.matchingFunctionMissing f hirIdx, .code ctx.tree f.span.start.line⟩ :: missing)

/-- The double loop collecting inversions (`crates/foundry/src/check/rules/structural_match.rs:172-186`).
The `BTreeSet` iterates in increasing order of `(hir_idx, sol_idx)`; the pairs are produced in
increasing `hir_idx`, once each, so the set is the filtered list. -/
def unsortedPairs : List (Nat × Nat) → List (Nat × Nat)
  | [] => []
  | (h, s) :: rest =>
    if rest.any (fun p => p.2 < s) then (h, s) :: unsortedPairs rest else unsortedPairs rest

/-- The final loop of `check_fns_structure`
(`crates/foundry/src/check/rules/structural_match.rs:188-207`). Indexing panics out of range. -/
def orderViolations (ctx : Context) (h : HContract) (s : SolContract) :
    List (Nat × Nat) → Res Empty (List Violation)
  | [] => .ok []
  | (hirIdx, solIdx) :: rest =>
    match h.children[hirIdx]?, s.parts[solIdx]? with
    | some _, some (.fn f) => do
      let line ← offsetToLine ctx.src f.start
      let vs ← orderViolations ctx h s rest
      .ok (⟨.functionOrderMismatch f solIdx hirIdx, .code ctx.sol line⟩ :: vs)
    | some _, some (.other ..) => orderViolations ctx h s rest
    | _, _ => .panic                              -- index out of range

/-- Models `check_fns_structure` (`crates/foundry/src/check/rules/structural_match.rs:123-210`). -/
def checkFnsStructure (ctx : Context) (h : HContract) (s : SolContract) : Res Empty (List Violation) := do
  let (present, missing) := presentAndMissing ctx s 0 h.children
  if present.isEmpty then .ok missing
  else do
    let order ← orderViolations ctx h s (unsortedPairs present)
    .ok (missing ++ order)

section
variable [U : Ucd]

/-- Models `StructuralMatcher::check` (`crates/foundry/src/check/rules/structural_match.rs:38-88`). -/
def checkCtx (ctx : Context) : Res Empty (List Violation) :=
  let contractHir := ctx.hir.findContract
  match findContract ctx.pt with
  | none =>
    match contractHir with
    | some c => .ok [⟨.contractMissing c.identifier, .file ctx.tree⟩]
    | none => .ok []
  | some s =>
    match contractHir with
    | none => .panic                              -- contract_hir.unwrap()
    | some h => do
      let v1 ← checkContractNames ctx h s
      let v2 ← checkFnsStructure ctx h s
      .ok (v1 ++ v2)

end

/-- Models `is_fixable` (`crates/foundry/src/check/violation.rs:139-147`). -/
def ViolationKind.isFixable : ViolationKind → Bool
  | .contractMissing _ => true
  | .contractNameNotMatches .. => true
  | .functionOrderMismatch .. => true
  | .matchingFunctionMissing .. => true
  | _ => false

/-- `matches!(v.kind, ViolationKind::FunctionOrderMismatch(..))`. -/
def ViolationKind.isOrder : ViolationKind → Bool
  | .functionOrderMismatch .. => true
  | _ => false

/-! ## Fixing -/

/-- `&s[..n]` and `&s[n..]`: splits at byte offset `n`, `none` (a panic) when out of range or inside a
character. -/
def splitAtByte : Nat → Str → Option (Str × Str)
  | 0, s => some ([], s)
  | _ + 1, [] => none
  | n + 1, c :: r =>
    if c.utf8Size ≤ n + 1 then
      match splitAtByte (n + 1 - c.utf8Size) r with
      | some (a, b) => some (c :: a, b)
      | none => none
    else none

/-- `&s[a..b]`. -/
def sliceBytes (s : Str) (a b : Nat) : Option Str := do
  let (pre, _) ← splitAtByte b s
  let (_, mid) ← splitAtByte a pre
  some mid

/-- `s.find(c)`: byte offset of the first occurrence. -/
def findChar (c : Char) : Str → Option Nat
  | [] => none
  | d :: r => if d = c then some 0 else (findChar c r).map (· + d.utf8Size)

/-- `s.replace(pat, to)` for a non-empty `pat`, scanning left to right: when `pat` matches, `to` is written
and `skip` characters are passed over. -/
def replaceAux (pat to : Str) : Nat → Str → Str
  | _, [] => []
  | skip + 1, _ :: r => replaceAux pat to skip r
  | 0, c :: r =>
    if (stripPrefix pat (c :: r)).isSome then to ++ replaceAux pat to (pat.length - 1) r
    else c :: replaceAux pat to 0 r

/-- Models `str::replace` with a non-empty pattern. -/
def replaceAll (pat to s : Str) : Str := replaceAux pat to 0 s

/-- The external Solidity parser (`forge_fmt::parse`). -/
abbrev SolParser := Str → Option SolUnit

/-- `parse(&source).expect(..)` followed by `from_parsed` (`crates/foundry/src/check/context.rs:83-88`). -/
def reparse (P : SolParser) (ctx : Context) (source : Str) : Res Empty Context :=
  match P source with
  | some pt => .ok { ctx with src := source, pt := pt }
  | none => .panic

/-- Models `insert_function_at` (`crates/foundry/src/check/context.rs:122-136`). -/
def insertFunctionAt (src : Str) (f : HFn) (offset : Nat) : Res Empty Str :=
  match splitAtByte offset src with
  | some (a, b) => .ok (a ++ c!"\n\n" ++ trimEnd (emitFunction f) ++ b)
  | none => .panic

/-- Models `find_contract_body_start` (`crates/foundry/src/check/violation.rs:266-276`). -/
def findContractBodyStart (s : SolContract) (src : Str) : Res Empty Nat :=
  match splitAtByte s.start src with
  | some (_, b) =>
    match findChar '{' b with
    | some i => .ok (s.start + i + 1)
    | none => .panic                              -- expect
  | none => .panic

/-- Models `get_insertion_offset` (`crates/foundry/src/check/violation.rs:235-255`). -/
def getInsertionOffset (s : SolContract) (h : HContract) (index : Nat) (src : Str) : Res Empty Nat :=
  match index with
  | 0 => findContractBodyStart s src
  | i + 1 =>
    match h.children[i]? with
    | none => .panic                              -- index out of range
    | some prev =>
      match findMatchingFn s prev with
      | some (_, f) => .ok f.stop
      | none => .panic                            -- expect("matching function should exist")

section
variable [U : Ucd]

/-- Models `ViolationKind::fix` (`crates/foundry/src/check/violation.rs:174-217`). -/
def fixViolation (P : SolParser) (v : ViolationKind) (ctx : Context) : Res Empty Context :=
  match v with
  | .contractMissing _ => reparse P ctx (emitSource (ptTranslate Config.default ctx.hir))
  | .contractNameNotMatches newName oldName =>
    reparse P ctx (replaceAll (c!"contract " ++ oldName) (c!"contract " ++ newName) ctx.src)
  | .matchingFunctionMissing f index =>
    match ctx.hir.findContract with
    | none => .ok ctx
    | some h =>
      match findContract ctx.pt with
      | none => .ok ctx
      | some s => do
        let offset ← getInsertionOffset s h index ctx.src
        let src ← insertFunctionAt ctx.src f offset
        reparse P ctx src
  | _ => .ok ctx

end

/-- `Vec::remove` then `Vec::insert` (`crates/foundry/src/check/violation.rs:333-337`); both panic out of
range. -/
def moveTo {α : Type} (l : List α) (solIdx hirIdx : Nat) (x : α) : Res Empty (List α) :=
  if solIdx < l.length then
    let l := l.eraseIdx solIdx
    if hirIdx ≤ l.length then .ok (l.insertIdx hirIdx x) else .panic
  else .panic

/-- Step 2 of `fix_order` (`crates/foundry/src/check/violation.rs:327-339`). -/
def sortParts : List ViolationKind → List SolPart → Res Empty (List SolPart)
  | [], fns => .ok fns
  | .functionOrderMismatch f solIdx hirIdx :: vs, fns => do
    let fns ← moveTo fns solIdx hirIdx (.fn f)
    sortParts vs fns
  | _ :: vs, fns => sortParts vs fns

/-- Step 3 of `fix_order` (`crates/foundry/src/check/violation.rs:343-352`): `safe_unwrap` panics on a function
without a name. -/
def keepKnown (names : List Str) : List SolPart → Res Empty (List SolPart)
  | [] => .ok []
  | .other .. :: ps => keepKnown names ps
  | .fn f :: ps =>
    match f.name with
    | none => .panic                              -- safe_unwrap
    | some n => do
      let rest ← keepKnown names ps
      .ok (if n ∈ names then .fn f :: rest else rest)

/-- Step 4 of `fix_order` (`crates/foundry/src/check/violation.rs:361-368`): the texts of the sorted functions
and the scratch copy with these texts blanked. -/
def collectTexts (src : Str) : List SolPart → Str → List Str → Res Empty (List Str × Str)
  | [], scratch, source => .ok (source, scratch)
  | p :: ps, scratch, source =>
    match sliceBytes src p.start p.stop with
    | none => .panic
    | some f => collectTexts src ps (replaceAll f (spaces (byteLen f)) scratch) (source ++ [f])

/-- The `SEPARATOR` of `fix_order` (`crates/foundry/src/check/violation.rs:387-394`). -/
def separator : Str := c!"

  // <<<<<<<<<<<<<<<<<<<<<<<<<<<<<<<<<<<<<<<<<<<<<<<<<<<<<<<<<<<<<<<<<<<<<<<<<
  // ==================== BULLOAK AUTOGENERATED SEPARATOR ====================
  // >>>>>>>>>>>>>>>>>>>>>>>>>>>>>>>>>>>>>>>>>>>>>>>>>>>>>>>>>>>>>>>>>>>>>>>>>
  //    Code below this section could not be automatically moved by bulloak
  // =========================================================================
        "

/-- Models `fix_order` (`crates/foundry/src/check/violation.rs:306-406`) up to the final parse: the new
source. -/
def fixOrderSource (vs : List ViolationKind) (s : SolContract) (h : HContract) (src : Str) :
    Res Empty Str := do
  let names := h.children.map HFn.identifier
  let fns ← sortParts vs s.parts
  let fns ← keepKnown names fns
  let (source, scratch) ← collectTexts src fns src []
  match s.parts with
  | [] => .panic                                  -- contract_sol.parts[0]
  | first :: _ =>
    let sep := if fns.length = s.parts.length then [] else separator
    match splitAtByte first.start src, sliceBytes scratch first.start (s.stop - 1),
        splitAtByte (s.stop - 1) src with
    | some (before, _), some middle, some (_, after) =>
      .ok (before ++ joinSep c!"\n\n" source ++ sep ++ middle ++ after)
    | _, _, _ => .panic

/-- Models `fix_order` (`crates/foundry/src/check/violation.rs:306-406`). -/
def fixOrder (P : SolParser) (vs : List ViolationKind) (s : SolContract) (h : HContract) (ctx : Context) :
    Res Empty Context := do
  let source ← fixOrderSource vs s h ctx.src
  reparse P ctx source

end Bulloak
