import Verif.Spec.Report
/-! # Specification: wording of messages -/

namespace Bulloak.Spec
open Bulloak

/-- Numbers written one after another, separated by commas. -/
inductive Listing : List Nat → Str → Prop where
  | one {n} : Listing [n] (Nat.toDigits 10 n)
  | cons {n ns out} : Listing ns out → Listing (n :: ns) (Nat.toDigits 10 n ++ c!", " ++ out)

/-- A warning: what is wrong, what can be done about it, possibly a command, and the place. -/
def Warns (out what help place : Str) : Prop :=
  ∃ cmd, out = c!"warn: " ++ what ++ c!"\n" ++ help ++ cmd ++ c!"   --> " ++ place ++ c!"\n" ∧
    (cmd = [] ∨ ∃ f, cmd = c!"     + fix: run `bulloak check --fix " ++ f ++ c!"`\n")

/-- The line of a help text. -/
def helpLine (h : Str) : Str := c!"     = help: " ++ h ++ c!"\n"

/-- A line of a file. -/
def atLine (file : Str) (line : Nat) : Str := file ++ c!":" ++ Nat.toDigits 10 line

/-- A number and a noun. -/
def counted (n : Nat) (one many : Str) : Str := Nat.toDigits 10 n ++ c!" " ++ if n = 1 then one else many

/-- The lines of a message of the commands, where `os` is an error of the operating system or the formatter and `quoted` the way a path
is quoted.  The lines of a rejected tree and of a violation are those of their own texts. -/
inductive NoteLines (os : Str) (quoted : FPath → Str) : Note → List Str → Prop where
  | unformatted : NoteLines os quoted .unformatted [c!"WARN: " ++ os]
  | skipped {p} : NoteLines os quoted (.skipped p)
      [c!"warn: Skipped emitting " ++ quoted p, c!"    = The corresponding `.t.sol` file already exists"]
  | writeFailed : NoteLines os quoted .writeFailed [c!"error: " ++ os]
  | fixFailed : NoteLines os quoted .fixFailed [c!"warn: " ++ os]
  | unreadable {p} : NoteLines os quoted (.failed p .io) [os, c!"file: " ++ p.str]
  | rejected {p e} : NoteLines os quoted (.failed p (.tree e)) [e.show, c!"file: " ++ p.str]
  | notScaffolded {n} : NoteLines os quoted (.scaffoldSummary n)
      [[], c!"warn: Could not scaffold " ++ Nat.toDigits 10 n ++
        c!" files. Check the output above or run bulloak check, which might prove helpful."]
  | violation {v} : NoteLines os quoted (.violation v) [v.show]
  | checksFailed {n} : NoteLines os quoted (.checkSummary n 0) [c!"warn: " ++ counted n c!"check" c!"checks" ++ c!" failed"]
  | checksFailedFixable {n m} : 0 < m → NoteLines os quoted (.checkSummary n m)
      [c!"warn: " ++ counted n c!"check" c!"checks" ++ c!" failed (run `bulloak check --fix <.tree files>` to apply " ++
        counted m c!"fix" c!"fixes" ++ c!")"]

end Bulloak.Spec

namespace Bulloak.Spec
open Bulloak

/-- The same tree error, except that several semantic errors may come in another order. -/
inductive SameError : TranslateError → TranslateError → Prop where
  | refl {e} : SameError e e
  | errors {b es es'} : es.Perm es' → SameError (.syntax (.semantics b es)) (.syntax (.semantics b es'))

/-- The same message, except that several semantic errors of a tree may come in another order. -/
inductive SameNote : Note → Note → Prop where
  | refl {n} : SameNote n n
  | errors {f e e'} : SameError e e' → SameNote (.failed f (.tree e)) (.failed f (.tree e'))

end Bulloak.Spec
