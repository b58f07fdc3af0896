import Verif.Model.Cli
import Verif.Spec.Check
/-!
# Specification vocabulary for the commands

Paths, what a tree file yields, and what the formatter and the parser are assumed to do.
-/

namespace Bulloak.Spec

/-- `p` is the Solidity file next to the tree file `t`: same directory, and the extension (what follows the last dot, a
leading dot not counting) is replaced by `t.sol`; a name without extension gets it appended. -/
def SolOf (t p : FPath) : Prop :=
  p.dir = t.dir ∧ ∃ stem, p.name = stem ++ c!".t.sol" ∧
    ((stem ≠ [] ∧ ∃ ext, '.' ∉ ext ∧ t.name = stem ++ '.' :: ext) ∨ (t.name = stem ∧ '.' ∉ stem.tail))

/-- None of the files is named like a Solidity test, so no file is both read and written. -/
def NoTests (files : List FPath) : Prop := ∀ f ∈ files, ¬ c!".t.sol" <:+ f.name

section
variable [U : Ucd]

/-- The text of a tree file yields the Solidity text `out`: it is translated, and the source is formatted twice (the second
formatting is skipped if it fails). -/
def Yields (env : Env) (cfg : Config) (text out : Str) : Prop :=
  ∃ src once, scaffoldSource env.order cfg text = .ok src ∧ env.forgeFmt src = some once ∧
    (env.forgeFmt once = some out ∨ env.forgeFmt once = none ∧ out = once)

/-- The tree file `f` can be read and yields `out`. -/
def Good (env : Env) (cfg : Config) (fs : Fs) (f : FPath) (out : Str) : Prop :=
  ∃ text, fs.state f = .text text ∧ Yields env cfg text out

/-- The tree file `f` cannot be read, or its text is rejected. -/
def Bad (env : Env) (cfg : Config) (fs : Fs) (f : FPath) : Prop :=
  (∀ text, fs.state f ≠ .text text) ∨ ∃ text e, fs.state f = .text text ∧ translate env.order cfg text = .err e

/-- The tree file `f` cannot be read, or its text is rejected with the given error. -/
def FailsWith (env : Env) (cfg : Config) (fs : Fs) (f : FPath) (e : FileError) : Prop :=
  ((∀ text, fs.state f ≠ .text text) ∧ e = .io) ∨
    ∃ text e', fs.state f = .text text ∧ translate env.order cfg text = .err e' ∧ e = .tree e'

/-- The formatter rejects what the tree file `f` is translated to. -/
def Unformatted (env : Env) (cfg : Config) (fs : Fs) (f : FPath) : Prop :=
  ∃ text src, fs.state f = .text text ∧ scaffoldSource env.order cfg text = .ok src ∧ env.forgeFmt src = none

/-- The text of the file can be formatted once but not a second time. -/
def Unstable (env : Env) (cfg : Config) (fs : Fs) (f : FPath) : Prop :=
  ∃ text src once, fs.state f = .text text ∧ scaffoldSource env.order cfg text = .ok src ∧ env.forgeFmt src = some once ∧
    env.forgeFmt once = none

/-- The outputs of the good files, in order. -/
inductive Outputs (env : Env) (cfg : Config) (fs : Fs) : List FPath → List Str → Prop where
  | nil : Outputs env cfg fs [] []
  | good {f out files outs} : Good env cfg fs f out → Outputs env cfg fs files outs →
      Outputs env cfg fs (f :: files) (out :: outs)
  | bad {f files outs} : Bad env cfg fs f → Outputs env cfg fs files outs → Outputs env cfg fs (f :: files) outs

/-- `check` can work on the tree file `t`: it is readable and translated, and the Solidity file next to it is readable
and parsed. -/
def Opens (env : Env) (skip : Bool) (fs : Fs) (t : FPath) (ctx : Context) : Prop :=
  ∃ text hir p src u, fs.state t = .text text ∧ translate env.order .default text = .ok hir ∧ SolOf t p ∧
    fs.state p = .text src ∧ env.solParse src = some u ∧ ctx = ⟨t.str, hir, p.str, src, u, skip⟩

end

/-- A contract part without its position: name and kind of a function. -/
def seen : SolPart → Option (Option Str × SolFnTy)
  | .fn g => some (g.name, g.ty)
  | .other .. => none

/-- Two parsed files have the same first contract, positions and bodies aside. -/
def SameContract (u v : SolUnit) : Prop :=
  ∀ s, FirstContract u s → ∃ s', FirstContract v s' ∧ s'.name = s.name ∧ s'.parts.map seen = s.parts.map seen

end Bulloak.Spec
