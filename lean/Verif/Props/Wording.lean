import Verif.Props.Report
import Verif.Spec.Messages
/-!
# The text the commands print (C61, C62)
-/

namespace Bulloak
open Spec
set_option linter.unusedSectionVars false

section
variable [U : Ucd]

/-- Every message is a number of whole lines with the given wording. -/
theorem wording_show (os : Str) (quoted : FPath → Str) (n : Note) :
    ∃ ls, NoteLines os quoted n ls ∧ n.show os quoted = ls.flatMap (· ++ c!"\n") := by
  cases n with
  | unformatted => exact ⟨_, .unformatted, by simp [Note.show]⟩
  | skipped p => exact ⟨_, .skipped, by simp [Note.show]⟩
  | writeFailed => exact ⟨_, .writeFailed, by simp [Note.show]⟩
  | fixFailed => exact ⟨_, .fixFailed, by simp [Note.show]⟩
  | failed p e =>
    cases e with
    | io => exact ⟨_, .unreadable, by simp [Note.show, FileError.show]⟩
    | tree e => exact ⟨_, .rejected, by simp [Note.show, FileError.show]⟩
  | scaffoldSummary n => exact ⟨_, .notScaffolded, by simp [Note.show, natToStr]⟩
  | violation v => exact ⟨_, .violation, by simp [Note.show]⟩
  | checkSummary n m =>
    by_cases h : 0 < m
    · exact ⟨_, .checksFailedFixable h, by simp [Note.show, h, counted, natToStr, pluralize]⟩
    · have : m = 0 := by omega
      subst this
      exact ⟨_, .checksFailed, by simp [Note.show, counted, natToStr, pluralize]⟩

theorem wording_all (os : Str) (quoted : FPath → Str) (ns : List Note) :
    ∃ lss, Each (NoteLines os quoted) ns lss ∧ ns.flatMap (Note.show os quoted) = lss.flatten.flatMap (· ++ c!"\n") := by
  induction ns with
  | nil => exact ⟨[], .nil, rfl⟩
  | cons n ns ih =>
    obtain ⟨lss, h1, h2⟩ := ih
    obtain ⟨ls, h3, h4⟩ := wording_show os quoted n
    exact ⟨ls :: lss, .cons h3 h1, by simp [h2, h4]⟩

/-- **C61**, text: what `scaffold` prints to standard error, as lines.  Together with C61_reports this is the whole text. -/
theorem C61_wording (env : Env) (a : ScaffoldArgs) (fs : Fs) (os : Str) (quoted : FPath → Str) :
    ∃ lss, Each (NoteLines os quoted) (scaffoldRun env a fs).stderr lss ∧
      (scaffoldRun env a fs).stderr.flatMap (Note.show os quoted) = lss.flatten.flatMap (· ++ c!"\n") := wording_all ..

/-- **C62**, text: what `check` prints to standard error, as lines.  Together with C62_reports and C62_fix_reports this is the whole text. -/
theorem C62_wording (env : Env) (a : CheckArgs) (fs : Fs) (os : Str) (quoted : FPath → Str) :
    ∃ lss, Each (NoteLines os quoted) (checkRun env a fs).stderr lss ∧
      (checkRun env a fs).stderr.flatMap (Note.show os quoted) = lss.flatten.flatMap (· ++ c!"\n") := wording_all ..

end

/-- A summary with one fixable violation of two. -/
example : ∃ ls, NoteLines c!"os" FPath.str (.checkSummary 2 1) ls ∧
    ls.flatMap (· ++ c!"\n") = c!"warn: 2 checks failed (run `bulloak check --fix <.tree files>` to apply 1 fix)\n" :=
  ⟨_, .checksFailedFixable (by decide), by decide +kernel⟩

end Bulloak
