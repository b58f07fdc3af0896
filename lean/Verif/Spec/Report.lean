import Verif.Spec.Cli
import Verif.Spec.Error
/-!
# Specification vocabulary for what the commands report
-/

namespace Bulloak.Spec

section
variable [U : Ucd]

/-- The files that fail, in order, each with its error. -/
inductive Failures (env : Env) (cfg : Config) (fs : Fs) : List FPath → List (FPath × FileError) → Prop where
  | nil : Failures env cfg fs [] []
  | bad {f e files es} : FailsWith env cfg fs f e → Failures env cfg fs files es → Failures env cfg fs (f :: files) ((f, e) :: es)
  | good {f out files es} : Good env cfg fs f out → Failures env cfg fs files es → Failures env cfg fs (f :: files) es

/-- After the files `before` were scaffolded into a file system that was `fs`, something is at `p`. -/
def Taken (env : Env) (cfg : Config) (fs : Fs) (before : List FPath) (p : FPath) : Prop :=
  fs.state p ≠ .absent ∨ fs.writable p = true ∧ ∃ g ∈ before, (∃ o, Good env cfg fs g o) ∧ SolOf g p

/-- What is reported while a good file is scaffolded to `p`, after the files `before`: a warning if its text is unstable; with
`-w` then a warning that `p` is left alone if something is there and `-f` was not given, or an error if `p` cannot be written. -/
def Reports (env : Env) (a : ScaffoldArgs) (fs : Fs) (before : List FPath) (f p : FPath) (ns : List Note) : Prop :=
  ∃ w n, ns = w ++ n ∧
    (Unstable env a.config fs f → w = [.unformatted]) ∧ (¬ Unstable env a.config fs f → w = []) ∧
    (a.writeFiles = false → n = []) ∧
    (a.writeFiles = true →
      (a.forceWrite = false ∧ Taken env a.config fs before p → n = [.skipped p]) ∧
      (¬ (a.forceWrite = false ∧ Taken env a.config fs before p) →
        (fs.writable p = true → n = []) ∧ (fs.writable p = false → n = [.writeFailed])))

/-- What is reported while the files are scaffolded, after the files `before`. -/
inductive During (env : Env) (a : ScaffoldArgs) (fs : Fs) : List FPath → List FPath → List Note → Prop where
  | nil {before} : During env a fs before [] []
  | bad {before f files ns} : Bad env a.config fs f → During env a fs (before ++ [f]) files ns → During env a fs before (f :: files) ns
  | good {before f out p ns' files ns} : Good env a.config fs f out → SolOf f p → Reports env a fs before f p ns' →
      During env a fs (before ++ [f]) files ns → During env a fs before (f :: files) (ns' ++ ns)

/-- `check` cannot work on the tree file `t`, and the violation says why and names the file at fault. -/
inductive Refused (env : Env) (fs : Fs) (t : FPath) : Violation → Prop where
  | unreadable : (∀ text, fs.state t ≠ .text text) → Refused env fs t ⟨.fileUnreadable, .file t.str⟩
  | rejected {text e} : fs.state t = .text text → translate env.order .default text = .err e →
      Refused env fs t ⟨.parsingFailed (.tree e), .file t.str⟩
  | missing {text hir p} : fs.state t = .text text → translate env.order .default text = .ok hir → SolOf t p → fs.state p = .absent →
      Refused env fs t ⟨.solidityFileMissing t.str, .file t.str⟩
  | unreadableSol {text hir p} : fs.state t = .text text → translate env.order .default text = .ok hir → SolOf t p →
      fs.state p = .unreadable → Refused env fs t ⟨.fileUnreadable, .file p.str⟩
  | brokenSol {text hir p src} : fs.state t = .text text → translate env.order .default text = .ok hir → SolOf t p →
      fs.state p = .text src → env.solParse src = none → Refused env fs t ⟨.parsingFailed (.solidity p.str), .file p.str⟩

/-- The trees `check` cannot work on, with a violation for each, and the contexts and Solidity paths of the others; both in order. -/
inductive Sorted (env : Env) (skip : Bool) (fs : Fs) : List FPath → List Violation → List (Context × FPath) → Prop where
  | nil : Sorted env skip fs [] [] []
  | refused {t v files vs cs} : Refused env fs t v → Sorted env skip fs files vs cs → Sorted env skip fs (t :: files) (v :: vs) cs
  | opens {t ctx p files vs cs} : Opens env skip fs t ctx → SolOf t p → Sorted env skip fs files vs cs →
      Sorted env skip fs (t :: files) vs ((ctx, p) :: cs)

/-- A violation `check --fix` can repair. -/
def Fixable (v : Violation) : Prop :=
  (∃ n, v.kind = .contractMissing n) ∨ (∃ a b, v.kind = .contractNameNotMatches a b) ∨ (∃ g i j, v.kind = .functionOrderMismatch g i j) ∨
    ∃ f i, v.kind = .matchingFunctionMissing f i

end
end Bulloak.Spec
