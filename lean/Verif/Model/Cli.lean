import Verif.Model.Report
/-!
# The command line (`crates/bulloak/src/scaffold.rs`, `crates/bulloak/src/check.rs`)

The file system is a function from paths to file states.  The external pieces (`forge_fmt::fmt`,
`forge_fmt::parse`, `Context::fmt`) are fields of `Env`.
What goes to stderr is modelled as a list of `Note`s; the wording of messages that come from the operating system or from the
external pieces, and terminal colours, are not modelled.
-/

namespace Bulloak

/-- A path: directory part and file name. -/
structure FPath where
  dir : Str
  name : Str
  deriving DecidableEq, Repr

/-- `Path::to_string_lossy`. -/
def FPath.str (p : FPath) : Str := p.dir ++ p.name

/-- The part of a file name before the last dot, when that dot is not the first character
(`Path::file_stem`). -/
def fileStem (name : Str) : Str :=
  match (name.reverse.dropWhile (· ≠ '.')) with
  | [] => name                                    -- no dot
  | [_] => name                                   -- only a leading dot
  | _ :: r => r.reverse

/-- Models `Path::with_extension("t.sol")` / `set_extension("t.sol")`
(`crates/bulloak/src/scaffold.rs:98`, `crates/foundry/src/check/context.rs:145`).  Paths without a file name
(such as `..`) are not modelled. -/
def FPath.withSolExt (p : FPath) : FPath := { p with name := fileStem p.name ++ c!".t.sol" }

/-- State of a path: missing, a readable UTF-8 file, or present but unreadable. -/
inductive FileState where
  | absent
  | text (content : Str)
  | unreadable
  deriving DecidableEq, Repr

/-- The file system: contents, and which paths can be written. -/
structure Fs where
  state : FPath → FileState
  writable : FPath → Bool

namespace Fs
/-- `fs::read_to_string`. -/
def read (fs : Fs) (p : FPath) : Option Str :=
  match fs.state p with
  | .text s => some s
  | _ => none
/-- `Path::exists`. -/
def exists_ (fs : Fs) (p : FPath) : Bool :=
  match fs.state p with
  | .absent => false
  | _ => true
/-- `fs::write`: `none` on failure. -/
def write (fs : Fs) (p : FPath) (s : Str) : Option Fs :=
  if fs.writable p then some { fs with state := fun q => if q = p then .text s else fs.state q } else none
end Fs

/-- External pieces. -/
structure Env where
  /-- `forge_fmt::fmt`; `none` is an error -/
  forgeFmt : Str → Option Str
  /-- `forge_fmt::parse` -/
  solParse : SolParser
  /-- `Context::fmt` (`crates/foundry/src/check/context.rs:92-107`): formats a parsed source -/
  ctxFmt : Context → Option Str
  /-- hash map iteration order -/
  order : HashOrder

/-- How a run of the program ended. -/
inductive Exit where
  | code (n : Nat)
  | panicked
  deriving DecidableEq, Repr

/-- Why a tree file could not be scaffolded: it could not be read, or its text was rejected. -/
inductive FileError where
  | io
  | tree (e : TranslateError)
  deriving DecidableEq, Repr

/-- A message on stderr. -/
inductive Note where
  /-- `WARN: {err}`, a formatter error (`crates/bulloak/src/scaffold.rs:92-95`) -/
  | unformatted
  /-- `warn: Skipped emitting {file}` (`crates/bulloak/src/scaffold.rs:113-123`) -/
  | skipped (file : FPath)
  /-- `error: {err}` (`crates/bulloak/src/scaffold.rs:126-128`): `scaffold` could not write; the message does not name the file -/
  | writeFailed
  /-- `warn: {e}` (`crates/bulloak/src/check.rs:143-145`): `check --fix` could not write; the message does not name the file -/
  | fixFailed
  /-- `{err}` and `file: {file}` (`crates/bulloak/src/scaffold.rs:136-139`); see `FileError.show` -/
  | failed (file : FPath) (e : FileError)
  /-- `warn: Could not scaffold {n} files. ...` (`crates/bulloak/src/scaffold.rs:141-146`) -/
  | scaffoldSummary (n : Nat)
  /-- `{violation}` (`crates/bulloak/src/check.rs:156-158`); see `Violation.show` -/
  | violation (v : Violation)
  /-- `warn: {n} checks failed`, and ` (run ... to apply {m} fixes)` if `m > 0` (`crates/bulloak/src/check.rs:160-176`) -/
  | checkSummary (n m : Nat)
  deriving DecidableEq, Repr

/-- Result of running a command: final file system, what was printed to stdout and stderr, how it ended. -/
structure Run where
  fs : Fs
  stdout : List Str
  stderr : List Note
  exit : Exit

/-- Models `Display` of the error of `process_file`: the error of the operating system, whose wording is a parameter, or the error
of `translate`. -/
def FileError.show (os : Str) : FileError → Str
  | .io => os
  | .tree e => e.show

/-- Models the text of the messages (`crates/bulloak/src/scaffold.rs:92-95`, `113-146`, `crates/bulloak/src/check.rs:143-145`,
`156-176`).  The wording of the formatter's and the operating system's errors (`os`), and how the path in a `skipped` message is
quoted and coloured (`quoted`), are parameters. -/
def Note.show (os : Str) (quoted : FPath → Str) : Note → Str
  | .unformatted => c!"WARN: " ++ os ++ c!"\n"
  | .skipped p => c!"warn: Skipped emitting " ++ quoted p ++ c!"\n    = The corresponding `.t.sol` file already exists\n"
  | .writeFailed => c!"error: " ++ os ++ c!"\n"
  | .fixFailed => c!"warn: " ++ os ++ c!"\n"
  | .failed p e => e.show os ++ c!"\n" ++ c!"file: " ++ p.str ++ c!"\n"
  | .scaffoldSummary n => c!"\nwarn: Could not scaffold " ++ natToStr n ++
      c!" files. Check the output above or run bulloak check, which might prove helpful.\n"
  | .violation v => v.show ++ c!"\n"
  | .checkSummary n m => c!"warn: " ++ natToStr n ++ c!" " ++ pluralize n c!"check" c!"checks" ++ c!" failed" ++
      (if 0 < m then c!" (run `bulloak check --fix <.tree files>` to apply " ++ natToStr m ++ c!" " ++ pluralize m c!"fix" c!"fixes" ++ c!")\n"
       else c!"\n")

/-! ## scaffold -/

/-- Flags of `bulloak scaffold` (`crates/bulloak/src/scaffold.rs:20-53`). -/
structure ScaffoldArgs where
  files : List FPath
  writeFiles : Bool
  forceWrite : Bool
  solidityVersion : Str
  withVmSkip : Bool
  skipModifiers : Bool

/-- Models `From<&Cli> for Config` for `scaffold` (`crates/bulloak/src/cli.rs:33-48`). -/
def ScaffoldArgs.config (a : ScaffoldArgs) : Config := ⟨a.skipModifiers, a.solidityVersion, a.withVmSkip⟩

/-- Models `write_file` (`crates/bulloak/src/scaffold.rs:111-129`): the new file system and the messages; a failed write is only
reported. -/
def writeFile (a : ScaffoldArgs) (fs : Fs) (text : Str) (file : FPath) : Fs × List Note :=
  if fs.exists_ file && !a.forceWrite then (fs, [.skipped file])
  else
    match fs.write file text with
    | some fs => (fs, [])
    | none => (fs, [.writeFailed])

section
variable [U : Ucd]

/-- Models `process_file` (`crates/bulloak/src/scaffold.rs:89-105`): the new file system and what goes to stdout and stderr. -/
def processFile (env : Env) (a : ScaffoldArgs) (fs : Fs) (file : FPath) : Res FileError (Fs × List Str × List Note) := do
  let text ← Res.okOr (fs.read file) .io
  let emitted ← (scaffold env.forgeFmt env.order a.config text).mapErr .tree
  let (formatted, warn) : Str × List Note :=
    match env.forgeFmt emitted with
    | some f => (f, [])
    | none => (emitted, [.unformatted])
  if a.writeFiles then
    let (fs, notes) := writeFile a fs formatted file.withSolExt
    .ok (fs, [], warn ++ notes)
  else .ok (fs, [formatted], warn)

/-- Models `report_errors` (`crates/bulloak/src/scaffold.rs:135-147`). -/
def reportErrors (errors : List (FPath × FileError)) : List Note :=
  errors.map (fun e => .failed e.1 e.2) ++ [.scaffoldSummary errors.length]

/-- The loop of `run` (`crates/bulloak/src/scaffold.rs:69-83`): file system, stdout, stderr, the errors so far; a
panic in one file aborts the process, keeping what was done before. -/
def scaffoldLoop (env : Env) (a : ScaffoldArgs) : List FPath → Fs → List Str → List Note → List (FPath × FileError) → Run
  | [], fs, out, notes, errors =>
    if errors.isEmpty then ⟨fs, out, notes, .code 0⟩ else ⟨fs, out, notes ++ reportErrors errors, .code 1⟩
  | f :: files, fs, out, notes, errors =>
    match processFile env a fs f with
    | .ok (fs, o, n) => scaffoldLoop env a files fs (out ++ o) (notes ++ n) errors
    | .err e => scaffoldLoop env a files fs out notes (errors ++ [(f, e)])
    | .panic => ⟨fs, out, notes, .panicked⟩

/-- Models `Scaffold::run` (`crates/bulloak/src/scaffold.rs:68-83`). -/
def scaffoldRun (env : Env) (a : ScaffoldArgs) (fs : Fs) : Run := scaffoldLoop env a a.files fs [] [] []

/-! ## check -/

/-- Flags of `bulloak check` (`crates/bulloak/src/check.rs:27-42`). -/
structure CheckArgs where
  files : List FPath
  fix : Bool
  stdout : Bool
  skipModifiers : Bool

/-- Models `Context::new` (`crates/foundry/src/check/context.rs:53-79`, `139-166`).  The Solidity path is
returned with the context. -/
def contextNew (env : Env) (skipModifiers : Bool) (fs : Fs) (tree : FPath) :
    Res Violation (Context × FPath) := do
  let contents ← Res.okOr (fs.read tree) ⟨.fileUnreadable, .file tree.str⟩
  let hir ← (translate env.order Config.default contents).mapErr
    (fun e => (⟨.parsingFailed (.tree e), .file tree.str⟩ : Violation))
  let sol := tree.withSolExt
  if !fs.exists_ sol then .err ⟨.solidityFileMissing tree.str, .file tree.str⟩
  else do
    let src ← Res.okOr (fs.read sol) ⟨.fileUnreadable, .file sol.str⟩
    let pt ← Res.okOr (env.solParse src) ⟨.parsingFailed (.solidity sol.str), .file sol.str⟩
    .ok (⟨tree.str, hir, sol.str, src, pt, skipModifiers⟩, sol)

/-- The first loop of `run` (`crates/bulloak/src/check.rs:55-64`): contexts and violations. -/
def contexts (env : Env) (skipModifiers : Bool) (fs : Fs) :
    List FPath → Res Empty (List (Context × FPath) × List Violation)
  | [] => .ok ([], [])
  | t :: ts =>
    match contextNew env skipModifiers fs t with
    | .ok c => do
      let (cs, vs) ← contexts env skipModifiers fs ts
      .ok (c :: cs, vs)
    | .err v => do
      let (cs, vs) ← contexts env skipModifiers fs ts
      .ok (cs, v :: vs)
    | .panic => .panic

/-- Fixing violations one after the other (`crates/bulloak/src/check.rs:80-82`). -/
def fixAll (P : SolParser) : List Violation → Context → Res Empty Context
  | [], ctx => .ok ctx
  | v :: vs, ctx => do
    let ctx ← fixViolation P v.kind ctx
    fixAll P vs ctx

/-- Fixing one context (`crates/bulloak/src/check.rs:68-113`): the fixed context and the number of fixable
violations. -/
def fixContext (P : SolParser) (ctx : Context) : Res Empty (Context × Nat) := do
  let violations ← checkCtx ctx
  let fixable := (violations.filter (fun v => v.kind.isFixable)).length
  let ctx ← fixAll P (violations.filter (fun v => !v.kind.isOrder)) ctx
  let violations ← checkCtx ctx
  let order := violations.filter (fun v => v.kind.isOrder)
  if order.isEmpty then .ok (ctx, fixable)
  else
    match findContract ctx.pt, ctx.hir.findContract with
    | some s, some h => do
      let ctx ← fixOrder P (order.map Violation.kind) s h ctx
      .ok (ctx, fixable)
    | _, _ => .ok (ctx, fixable)

/-- Models `write` (`crates/bulloak/src/check.rs:138-146`). -/
def checkWrite (a : CheckArgs) (fs : Fs) (output : Str) (sol : FPath) : Fs × List Str × List Note :=
  if a.stdout then (fs, [c!"--> " ++ sol.str, trim output, c!"<--"], [])
  else
    match fs.write sol output with
    | some fs => (fs, [], [])
    | none => (fs, [], [.fixFailed])

/-- The fix loop of `run` (`crates/bulloak/src/check.rs:66-124`). -/
def fixLoop (env : Env) (a : CheckArgs) : List (Context × FPath) → Fs → List Str → List Note → Nat → Run
  | [], fs, out, notes, fixed =>
    ⟨fs, out ++ [c!"\nsuccess: " ++ natToStr fixed ++ c!" " ++ pluralize fixed c!"issue" c!"issues" ++ c!" fixed."],
      notes, .code 0⟩
  | (ctx, sol) :: cs, fs, out, notes, fixed =>
    match fixContext env.solParse ctx with
    | .panic => ⟨fs, out, notes, .panicked⟩
    | .err e => nomatch e
    | .ok (ctx, fixable) =>
      match env.ctxFmt ctx with
      | none => ⟨fs, out, notes, .panicked⟩              -- expect
      | some formatted =>
        let (fs, o, n) := checkWrite a fs formatted sol
        fixLoop env a cs fs (out ++ o) (notes ++ n) (fixed + fixable)

/-- The check loop of `run` (`crates/bulloak/src/check.rs:125-131`). -/
def checkAll : List (Context × FPath) → Res Empty (List Violation)
  | [] => .ok []
  | (ctx, _) :: cs => do
    let v ← checkCtx ctx
    let vs ← checkAll cs
    .ok (v ++ vs)

/-- Models `exit` (`crates/bulloak/src/check.rs:149-180`). -/
def checkExit (fs : Fs) (violations : List Violation) : Run :=
  if violations.isEmpty then
    ⟨fs, [c!"All checks completed successfully! No issues found."], [], .code 0⟩
  else
    ⟨fs, [], violations.map .violation ++
      [.checkSummary violations.length (violations.filter (fun v => v.kind.isFixable)).length], .code 1⟩

/-- Models `Check::run` (`crates/bulloak/src/check.rs:54-132`). -/
def checkRun (env : Env) (a : CheckArgs) (fs : Fs) : Run :=
  match contexts env a.skipModifiers fs a.files with
  | .panic => ⟨fs, [], [], .panicked⟩
  | .err e => nomatch e
  | .ok (ctxs, violations) =>
    if a.fix then fixLoop env a ctxs fs [] [] 0
    else
      match checkAll ctxs with
      | .panic => ⟨fs, [], [], .panicked⟩
      | .err e => nomatch e
      | .ok vs => checkExit fs (violations ++ vs)

end
end Bulloak
