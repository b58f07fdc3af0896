import Verif.Model.Syntax
/-!
# High-level intermediate representation

Models `crates/foundry/src/hir/{hir,translator,combiner,mod}.rs` and
`crates/foundry/src/scaffold/modifiers.rs`.

Simplification: `Hir` is one recursive enum in Rust.  The translator only builds
`Root [ContractDefinition [FunctionDefinition [Comment | Statement]]]`, so the model has one type per
level; match arms of the Rust code for other shapes are unreachable and not modelled.
-/

namespace Bulloak

/-- Models `Config` (`crates/foundry/src/config.rs:12-22`) without `files`. -/
structure Config where
  skipModifiers : Bool
  solidityVersion : Str
  emitVmSkip : Bool
  deriving DecidableEq, Repr

/-- Models `Config::default` (`crates/foundry/src/config.rs:24-33`, `DEFAULT_SOL_VERSION`). -/
def Config.default : Config := ⟨false, c!"0.8.0", false⟩

/-- Models `FunctionTy` (`crates/foundry/src/hir/hir.rs:81-87`). -/
inductive FnTy where
  | function | modifier
  deriving DecidableEq, Repr

/-- A node of a function body: `Comment` or `Statement(VmSkip)`
(`crates/foundry/src/hir/hir.rs:128-147`). -/
inductive BodyItem where
  | comment (lexeme : Str)
  | vmSkip
  deriving DecidableEq, Repr

/-- Models `FunctionDefinition` (`crates/foundry/src/hir/hir.rs:95-112`). -/
structure HFn where
  identifier : Str
  ty : FnTy
  span : Span
  modifiers : Option (List Str)
  children : Option (List BodyItem)
  deriving DecidableEq, Repr

/-- Models `ContractDefinition` (`crates/foundry/src/hir/hir.rs:69-75`). -/
structure HContract where
  identifier : Str
  children : List HFn
  deriving DecidableEq, Repr

/-- Models the HIR `Root` (`crates/foundry/src/hir/hir.rs:50-57`). -/
structure HRoot where
  children : List HContract
  deriving DecidableEq, Repr

/-- Models `find_contract` (`crates/foundry/src/hir/hir.rs:60-65`). -/
def HRoot.findContract (r : HRoot) : Option HContract := r.children.head?

/-- Models `is_modifier` (`crates/foundry/src/hir/hir.rs:117-119`). -/
def HFn.isModifier (f : HFn) : Bool := f.ty = .modifier

/-- Models `is_function` (`crates/foundry/src/hir/hir.rs:123-125`). -/
def HFn.isFunction (f : HFn) : Bool := f.ty = .function

/-- `IndexMap::insert`: replaces the value of an existing key, otherwise appends. -/
def mapInsert (k v : Str) : List (Str × Str) → List (Str × Str)
  | [] => [(k, v)]
  | (k', v') :: m => if k' = k then (k', v) :: m else (k', v') :: mapInsert k v m

section
variable [U : Ucd]

mutual
/-- Models `ModifierDiscoverer::visit_condition` (`crates/foundry/src/scaffold/modifiers.rs:68-84`), for
nodes that are conditions; other nodes are skipped by the callers' `if let`. -/
def discoverNode (ast : Ast) (m : List (Str × Str)) : List (Str × Str) :=
  match ast with
  | .condition _ title children => discoverNodes children (mapInsert title (lowerFirst (toPascal title)) m)
  | _ => m

/-- The loops over children (`crates/foundry/src/scaffold/modifiers.rs:59-63`, `77-81`). -/
def discoverNodes (asts : List Ast) (m : List (Str × Str)) : List (Str × Str) :=
  match asts with
  | [] => m
  | a :: as => discoverNodes as (discoverNode a m)
end

/-- Models `ModifierDiscoverer::discover` (`crates/foundry/src/scaffold/modifiers.rs:38-46`). -/
def discover (ast : Ast) : Res Empty (List (Str × Str)) :=
  match ast with
  | .root _ _ children => .ok (discoverNodes children [])
  | _ => .panic                                   -- unreachable!()

/-- Models `visit_description` (`crates/foundry/src/hir/translator.rs:314-321`) behind the `if let` of
`visit_action`. -/
def visitDescription : Ast → List BodyItem
  | .description _ text => [.comment text]
  | _ => []

/-- Models `visit_action` (`crates/foundry/src/hir/translator.rs:296-312`). -/
def visitAction (title : Str) (children : List Ast) : List BodyItem :=
  .comment title :: children.flatMap visitDescription

/-- The actions loop of `visit_condition` (`crates/foundry/src/hir/translator.rs:195-200`). -/
def visitActions (children : List Ast) : List BodyItem :=
  children.flatMap (fun c => match c with
    | .action _ title cs => visitAction title cs
    | _ => [])

/-- Models `is_revert` (`crates/foundry/src/hir/translator.rs:206-214`).  `str::to_lowercase` is
character-wise here, see `strToLower`. -/
def isRevert (actions : List BodyItem) : Bool :=
  match actions.head? with
  | some (.comment lexeme) => sanitize (strToLower (trim lexeme)) = c!"it should revert"
  | _ => false

/-- `words.fold(acc, |acc, w| acc + upper_first_letter(w))`. -/
def foldWords (acc : Str) (words : List Str) : Str := words.foldl (fun acc w => acc ++ upperFirst w) acc

/-- The function name of a condition (`crates/foundry/src/hir/translator.rs:216-255`). -/
def conditionTestName (revert : Bool) (title : Str) : Res Empty Str :=
  match splitWs title with
  | [] => .panic                                  -- words.next().unwrap()
  | w :: words =>
    let keyword := upperFirst w
    if revert then
      -- `String::with_capacity(title.len() - keyword.len())` overflows if the keyword is longer
      if byteLen title < byteLen keyword then .panic
      else .ok (c!"test_Revert" ++ keyword ++ c!"_" ++ foldWords [] words)
    else .ok (c!"test_" ++ foldWords keyword words)

/-- The optional `vm.skip` statement (`crates/foundry/src/hir/translator.rs:132-136`, `266-270`). -/
def vmSkipItems (withVmSkip : Bool) : List BodyItem := if withVmSkip then [.vmSkip] else []

/-- The condition's own test, if it has direct actions (`crates/foundry/src/hir/translator.rs:202-280`). -/
def conditionTest (withVmSkip : Bool) (span : Span) (title : Str) (children : List Ast)
    (stack : List Str) : Res Empty (List HFn) :=
  let actions := visitActions children
  if actions.isEmpty then .ok []
  else do
    let name ← conditionTestName (isRevert actions) title
    let modifiers := if stack.isEmpty then none else some stack
    .ok [⟨name, .function, span, modifiers, some (actions ++ vmSkipItems withVmSkip)⟩]

/-- The condition's modifier and the stack after pushing it
(`crates/foundry/src/hir/translator.rs:170-191`). -/
def conditionModifier (mods : List (Str × Str)) (span : Span) (title : Str) (children : List Ast)
    (stack : List Str) : List HFn × List Str :=
  let actionCount := (children.filter Ast.isAction).length
  if children.length ≠ actionCount then
    match mods.lookup title with
    | some m => ([⟨m, .modifier, span, none, none⟩], stack ++ [m])
    | none => ([], stack)
  else ([], stack)

mutual
/-- Models `visit_condition` (`crates/foundry/src/hir/translator.rs:164-294`).  The modifier stack is
threaded through: the result contains the stack after the visit.  Nodes that are not conditions
are skipped (the `if let` of the recursion, lines 283-287). -/
def visitCondition (mods : List (Str × Str)) (withVmSkip : Bool) (ast : Ast) (stack : List Str) :
    Res Empty (List HFn × List Str) :=
  match ast with
  | .condition span title children => do
    let (modifier, stack) := conditionModifier mods span title children stack
    let test ← conditionTest withVmSkip span title children stack
    let (nested, stack) ← visitConditions mods withVmSkip children stack
    let stack := if children.length ≠ (children.filter Ast.isAction).length then stack.dropLast else stack
    .ok (modifier ++ test ++ nested, stack)
  | _ => .ok ([], stack)

/-- The recursion over child conditions (`crates/foundry/src/hir/translator.rs:282-287`). -/
def visitConditions (mods : List (Str × Str)) (withVmSkip : Bool) (asts : List Ast) (stack : List Str) :
    Res Empty (List HFn × List Str) :=
  match asts with
  | [] => .ok ([], stack)
  | a :: as => do
    let (fs, stack) ← visitCondition mods withVmSkip a stack
    let (gs, stack) ← visitConditions mods withVmSkip as stack
    .ok (fs ++ gs, stack)
end

/-- The test of a top-level action (`crates/foundry/src/hir/translator.rs:105-147`). -/
def topActionTest (withVmSkip : Bool) (span : Span) (title : Str) (children : List Ast) : HFn :=
  let name := c!"test_" ++ sanitize (foldWords [] ((splitWs title).drop 1))
  ⟨name, .function, span, none, some (visitAction title children ++ vmSkipItems withVmSkip)⟩

/-- The loop of `visit_root` (`crates/foundry/src/hir/translator.rs:95-153`). -/
def visitRootChildren (mods : List (Str × Str)) (withVmSkip : Bool) :
    List Ast → List Str → Res Empty (List HFn)
  | [], _ => .ok []
  | a :: as, stack =>
    match a with
    | .root .. | .description .. => .panic        -- unreachable!()
    | .action span title children => do
      let rest ← visitRootChildren mods withVmSkip as stack
      .ok (topActionTest withVmSkip span title children :: rest)
    | .condition .. => do
      let (fs, stack) ← visitCondition mods withVmSkip a stack
      let rest ← visitRootChildren mods withVmSkip as stack
      .ok (fs ++ rest)

/-- Models `translate_one` (`crates/foundry/src/hir/mod.rs:48-52`) with `TranslatorI::translate`
(`crates/foundry/src/hir/translator.rs:73-82`) and `visit_root` (`89-162`). -/
def translateOne (cfg : Config) (ast : Ast) : Res Empty HRoot := do
  let mods ← discover ast
  match ast with
  | .root _ contractName children => do
    let fns ← visitRootChildren mods cfg.emitVmSkip children []
    .ok ⟨[⟨contractName, fns⟩]⟩
  | _ => .panic                                   -- unreachable!()

/-! ## Combiner -/

/-- Models `combiner::ErrorKind` (`crates/foundry/src/hir/combiner.rs:53-74`). -/
inductive CombineError where
  | contractNameMismatch (actual expected : Str)
  | contractNameMissing (index : Nat)
  | separatorMissing (index : Nat)
  deriving DecidableEq, Repr

/-- Models `s.split_once("::")` (`crates/foundry/src/hir/combiner.rs:144-146`). -/
def splitOnceSep : Str → Option (Str × Str)
  | [] => none
  | [_] => none
  | c :: d :: r =>
    if c = ':' ∧ d = ':' then some ([], r)
    else match splitOnceSep (d :: r) with
      | some (a, b) => some (c :: a, b)
      | none => none

/-- Models `prefix_test_with` (`crates/foundry/src/hir/combiner.rs:234-238`). -/
def prefixTestWith (testName pre : Str) : Str :=
  c!"test_" ++ upperFirst pre ++ trimStartMatches c!"test_" testName.length testName

/-- Models `prefix_test` (`crates/foundry/src/hir/combiner.rs:207-218`). -/
def prefixTest (pre : Str) (f : HFn) : HFn :=
  if f.isFunction then { f with identifier := prefixTestWith f.identifier pre } else f

/-- Models `filter_map(collect_modifier)` (`crates/foundry/src/hir/combiner.rs:240-257`) over a list,
threading the set of identifiers seen so far. -/
def collectModifiers (seen : List Str) : List HFn → List HFn × List Str
  | [] => ([], seen)
  | f :: fs =>
    if f.identifier ∈ seen then collectModifiers seen fs
    else
      let (gs, seen') := collectModifiers (f.identifier :: seen) fs
      (f :: gs, seen')

/-- Models `update_children` (`crates/foundry/src/hir/combiner.rs:221-231`). -/
def updateChildren (seen : List Str) (fnName : Str) (children : List HFn) : List HFn × List Str :=
  collectModifiers seen (children.map (prefixTest fnName))

/-- The body of `combine`'s inner loop for one contract of tree number `idx`
(`crates/foundry/src/hir/combiner.rs:141-196`). -/
def combineContract (idx : Nat) (acc : HContract) (seen : List Str) (contract : HContract) :
    Res CombineError (HContract × List Str) := do
  let (contractName, fnName) ← Res.okOr (splitOnceSep contract.identifier) (.separatorMissing (idx + 1))
  if trim contractName = [] then .err (.contractNameMissing (idx + 1))
  else if acc.identifier = [] then
    let (children, seen) := updateChildren seen fnName contract.children
    .ok (⟨contractName, children⟩, seen)
  else if contractName ≠ acc.identifier then .err (.contractNameMismatch contractName acc.identifier)
  else
    let (children, seen) := updateChildren seen fnName contract.children
    .ok (⟨acc.identifier, acc.children ++ children⟩, seen)

/-- The inner loop of `combine` over the contracts of one root (`crates/foundry/src/hir/combiner.rs:135-197`). -/
def combineContracts (idx : Nat) : List HContract → HContract → List Str → Res CombineError (HContract × List Str)
  | [], acc, seen => .ok (acc, seen)
  | c :: cs, acc, seen => do
    let (acc, seen) ← combineContract idx acc seen c
    combineContracts idx cs acc seen

/-- The outer loop of `combine` (`crates/foundry/src/hir/combiner.rs:130-198`). -/
def combineRoots : Nat → List HRoot → HContract → List Str → Res CombineError HContract
  | _, [], acc, _ => .ok acc
  | idx, r :: rs, acc, seen => do
    let (acc, seen) ← combineContracts idx r.children acc seen
    combineRoots (idx + 1) rs acc seen

/-- Models `combine` (`crates/foundry/src/hir/combiner.rs:125-204`); the accumulator starts as
`ContractDefinition::default()`. -/
def combine (hirs : List HRoot) : Res CombineError HRoot := do
  let acc ← combineRoots 0 hirs ⟨[], []⟩ []
  .ok ⟨[acc]⟩

/-! ## Translation of files -/

/-- Errors of `translate` (an `anyhow::Error` wrapping a syntax or a combiner error; the latter carries
the whole text and the default span). -/
inductive TranslateError where
  | syntax (e : SyntaxError)
  | combiner (text : Str) (e : CombineError)
  deriving DecidableEq, Repr

/-- Models `translate` (`crates/foundry/src/hir/mod.rs:26-35`).  The Rust code translates each tree only when the
combiner asks for it; here all are translated first.  A panic would then come before a combiner error, but
translating a parsed tree never panics (`translateOne_eq` in `Lemmas/Hir.lean`). -/
def translate (order : HashOrder) (cfg : Config) (text : Str) : Res TranslateError HRoot := do
  let asts ← (parse order text).mapErr TranslateError.syntax
  match asts with
  | [ast] => (translateOne cfg ast).mapErr (fun e => nomatch e)
  | asts => do
    -- `mapErr`: `translateOne` has no error results, only `ok` or `panic`
    let hirs ← (collectRes (translateOne cfg) asts).mapErr (fun e => nomatch e)
    (combine hirs).mapErr (TranslateError.combiner text)

end
end Bulloak
