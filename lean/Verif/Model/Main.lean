import Verif.Model.Cli
/-!
# The program (`crates/bulloak/src/main.rs`, `crates/bulloak/src/cli.rs` and the `#[arg(..)]` attributes)

The command line is parsed by clap 4.4.8 from the attributes of `Cli`, `Commands`, `Scaffold` and `Check`.  The attributes are
modelled as tables of options; what clap does with such a table (`argLoop` and below) is modelled after clap's documentation and is
part of the trusted base, as is that the round trip through figment (`crates/bulloak/src/cli.rs:53-54`) changes nothing.  Arguments
are Unicode strings.  The text clap prints (help, usage errors) is not modelled.
-/

namespace Bulloak

/-- A declared option: `#[arg(short, long)]`; `valued` says whether it takes a value. -/
structure Opt where
  short : Option Char
  long : Str
  valued : Bool
  deriving DecidableEq, Repr

/-- What clap makes of a command line. -/
inductive Parsed (α : Type) where
  | run (a : α)
  /-- help or version is printed -/
  | help
  /-- the command line is refused -/
  | usage
  deriving Repr, DecidableEq

/-- The options (with values) and files given so far. -/
structure Given where
  opts : List (Opt × Str)
  files : List Str
  deriving Repr, DecidableEq

/-- The value of an option. -/
def Given.get (g : Given) (o : Opt) : Option Str := (g.opts.find? (fun p => p.1 = o)).map Prod.snd

/-- Is an option there? -/
def Given.has (g : Given) (o : Opt) : Bool := g.opts.any (fun p => p.1 = o)

/-- Adding an option: none may be given twice. -/
def Given.add (g : Given) (o : Opt) (v : Str) : Option Given :=
  if g.has o then none else some { g with opts := g.opts ++ [(o, v)] }

/-- Where the scan of one argument ends. -/
inductive Scanned where
  | more (g : Given)
  /-- an option that takes its value from the next argument -/
  | pending (g : Given) (o : Opt)
  | help
  | usage

/-- `Given.add` as the end of an argument. -/
def Scanned.ofAdd : Option Given → Scanned
  | some g => .more g
  | none => .usage

/-- The characters of an argument such as `-wf` or `-s0.8.1`. -/
def shortArgs (opts : List Opt) : Given → Str → Scanned
  | g, [] => .more g
  | g, c :: cs =>
    match opts.find? (fun o => o.short = some c) with
    | some o =>
      if o.valued then
        match cs with
        | [] => .pending g o
        | v :: vs => if v = '=' then .ofAdd (g.add o vs) else .ofAdd (g.add o (v :: vs))
      else
        match g.add o [] with
        | some g => shortArgs opts g cs
        | none => .usage
    | none => if c = 'h' then .help else .usage

/-- An argument such as `--fix` or `--solidity-version=0.8.1`, without the dashes. -/
def longArg (opts : List Opt) (g : Given) (a : Str) : Scanned :=
  match opts.find? (fun o => o.long = a.takeWhile (· ≠ '=')) with
  | some o =>
    match a.dropWhile (· ≠ '=') with
    | [] => if o.valued then .pending g o else .ofAdd (g.add o [])
    | _ :: v => if o.valued then .ofAdd (g.add o v) else .usage
  | none => if a = c!"help" then .help else .usage

/-- Does an argument stand for itself, i.e. is it not an option? -/
def isOperand : Str → Bool
  | '-' :: _ :: _ => false
  | _ => true

/-- An argument that is an option. -/
def scanArg (opts : List Opt) (g : Given) : Str → Scanned
  | [] => .usage
  | _ :: s => if s.head? = some '-' then longArg opts g s.tail else shortArgs opts g s

/-- The arguments behind the name of the command; `pending` is an option whose value comes next. -/
def argLoop (opts : List Opt) (g : Given) (pending : Option Opt) : List Str → Parsed Given
  | [] => if pending.isSome then .usage else .run g
  | a :: as =>
    match pending with
    | some o =>
      if isOperand a then
        match g.add o a with
        | some g => argLoop opts g none as
        | none => .usage
      else .usage
    | none =>
      if a = c!"--" then
        if as.any List.isEmpty then .usage else .run { g with files := g.files ++ as }
      else if isOperand a then
        if a = [] then .usage else argLoop opts { g with files := g.files ++ [a] } none as
      else
        match scanArg opts g a with
        | .more g => argLoop opts g none as
        | .pending g o => argLoop opts g (some o) as
        | .help => .help
        | .usage => .usage

/-- A path given on the command line: directory part and name. -/
def toPath (s : Str) : FPath :=
  ⟨(s.reverse.dropWhile (· ≠ '/')).reverse, (s.reverse.takeWhile (· ≠ '/')).reverse⟩

namespace Opt
/-- `-w`, `--write-files` (`crates/bulloak/src/scaffold.rs:33-34`). -/
def write : Opt := ⟨some 'w', c!"write-files", false⟩
/-- `-f`, `--force-write` (`crates/bulloak/src/scaffold.rs:37-43`). -/
def force : Opt := ⟨some 'f', c!"force-write", false⟩
/-- `-s`, `--solidity-version` (`crates/bulloak/src/scaffold.rs:45-46`). -/
def version : Opt := ⟨some 's', c!"solidity-version", true⟩
/-- `-S`, `--vm-skip` (`crates/bulloak/src/scaffold.rs:48-49`). -/
def vmSkip : Opt := ⟨some 'S', c!"vm-skip", false⟩
/-- `-m`, `--skip-modifiers` (`crates/bulloak/src/scaffold.rs:51-52`, `crates/bulloak/src/check.rs:40-41`). -/
def skip : Opt := ⟨some 'm', c!"skip-modifiers", false⟩
/-- `--fix` (`crates/bulloak/src/check.rs:33-34`). -/
def fix : Opt := ⟨none, c!"fix", false⟩
/-- `--stdout` (`crates/bulloak/src/check.rs:37-38`). -/
def stdout : Opt := ⟨none, c!"stdout", false⟩
end Opt

/-- The options of `scaffold` (`crates/bulloak/src/scaffold.rs:20-53`). -/
def scaffoldOpts : List Opt := [.write, .force, .version, .vmSkip, .skip]

/-- The options of `check` (`crates/bulloak/src/check.rs:27-42`). -/
def checkOpts : List Opt := [.fix, .stdout, .skip]

/-- Models `Commands` (`crates/bulloak/src/cli.rs:17-24`). -/
inductive Command where
  | scaffold (a : ScaffoldArgs)
  | check (a : CheckArgs)

/-- The fields of `Scaffold`, with their defaults; `--force-write` requires `--write-files`. -/
def scaffoldCommand (g : Given) : Parsed Command :=
  if g.has .force && !g.has .write then .usage
  else .run (.scaffold ⟨g.files.map toPath, g.has .write, g.has .force, (g.get .version).getD c!"0.8.0", g.has .vmSkip, g.has .skip⟩)

/-- The fields of `Check`; `--stdout` requires `--fix`. -/
def checkCommand (g : Given) : Parsed Command :=
  if g.has .stdout && !g.has .fix then .usage
  else .run (.check ⟨g.files.map toPath, g.has .fix, g.has .stdout, g.has .skip⟩)

/-- Continue with the arguments of a command. -/
def Parsed.andThen {α β : Type} (p : Parsed α) (k : α → Parsed β) : Parsed β :=
  match p with
  | .run a => k a
  | .help => .help
  | .usage => .usage

/-- `bulloak help`, generated by clap. -/
def helpCommand (as : List Str) : Parsed Command :=
  if as.length ≤ 1 ∧ ∀ b ∈ as, b ∈ [c!"scaffold", c!"check", c!"help"] then .help else .usage

/-- The options of `bulloak` itself, generated by clap: `-h`, `--help`, `-V`, `--version`. -/
def topOption (a : Str) : Parsed Command :=
  if a = c!"--help" ∨ a = c!"--version" ∨ c!"-h" <+: a ∨ c!"-V" <+: a then .help else .usage

/-- Models `Cli::parse` (`crates/bulloak/src/cli.rs:7-24`, `54`): the arguments without the name of the program. -/
def cliParse : List Str → Parsed Command
  | [] => .usage
  | a :: as =>
    if a = c!"scaffold" then (argLoop scaffoldOpts ⟨[], []⟩ none as).andThen scaffoldCommand
    else if a = c!"check" then (argLoop checkOpts ⟨[], []⟩ none as).andThen checkCommand
    else if a = c!"help" then helpCommand as
    else topOption a

/-- How the program ended: clap printed something, or a command was run. -/
inductive Outcome where
  | help
  | usage
  | ran (r : Run)

/-- The file system afterwards. -/
def Outcome.fs (fs : Fs) : Outcome → Fs
  | .ran r => r.fs
  | _ => fs

/-- The exit code: clap's `Error::exit`. -/
def Outcome.exit : Outcome → Exit
  | .help => .code 0
  | .usage => .code 2
  | .ran r => r.exit

/-- Models `main` and `run` (`crates/bulloak/src/main.rs:8-13`, `crates/bulloak/src/cli.rs:52-62`). -/
def program [Ucd] (env : Env) (args : List Str) (fs : Fs) : Outcome :=
  match cliParse args with
  | .help => .help
  | .usage => .usage
  | .run (.scaffold a) => .ran (scaffoldRun env a fs)
  | .run (.check a) => .ran (checkRun env a fs)

end Bulloak
