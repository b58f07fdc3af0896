import Verif.Props.DryRun
/-! # Dry runs: concrete cases (C117, C118), and a counterexample (C119) -/

namespace Bulloak
open Spec
set_option linter.unusedSectionVars false

attribute [local instance] asciiUcd

/-- A good tree, one that is rejected, one without a Solidity file, and a Solidity file with another contract.  Files can be written if `w`. -/
private def disk (w : Bool) : Fs :=
  ⟨fun p => if p.name = c!"a.tree" then .text c!"Foo\n└── it a" else
    if p.name = c!"b.tree" then .text c!"Foo\nBar" else
    if p.name = c!"c.tree" then .text c!"Foo\n└── it c" else
    if p.name = c!"a.t.sol" then .text c!"contract Bar {}" else .absent, fun _ => w⟩

/-- A formatter that changes nothing and a parser that finds an empty contract. -/
private def env : Env := ⟨some, fun s =>
  if s = c!"contract Bar {}" then (some [.contract ⟨some c!"Bar", 0, 15, []⟩]) else (some [.contract ⟨some c!"Foo", 0, 15, []⟩]), fun c => some c.src, id⟩

private def pa (n : String) : FPath := ⟨c!"x/", n.toList⟩

private def three : List FPath := [pa "a.tree", pa "b.tree", pa "c.tree"]

private theorem three_named : NoTests three := by
  intro f hf
  simp only [three, List.mem_cons, List.not_mem_nil, or_false] at hf
  rw [← List.isSuffixOf_iff_suffix]
  rcases hf with rfl | rfl | rfl <;> decide +kernel

private def onThree (w f : Bool) : ScaffoldArgs := ⟨three, w, f, c!"0.8.0", false, false⟩

/-- C117: with and without `-f`. -/
example := haveI := lawful_ascii; C117_scaffold (env := env) (a := onThree true true) (fs := disk true) three_named
example := haveI := lawful_ascii; C117_scaffold (env := env) (a := onThree true false) (fs := disk true) three_named

set_option maxRecDepth 16000 in
/-- C117: two trees are shown. -/
example : (scaffoldRun env (onThree false false) (disk true)).stdout.length = 2 ∧ (scaffoldRun env (onThree false false) (disk true)).exit = .code 1 := by
  refine ⟨?_, ?_⟩ <;> cbv

private def fixArgs (fix : Bool) : CheckArgs := ⟨three, fix, false, false⟩

/-- C117 -/
example := haveI := lawful_ascii; C117_check env (fixArgs true) (disk true)

set_option maxRecDepth 16000 in
/-- C117: the Solidity file is shown by `check --fix --stdout`. -/
example : ((checkRun env ⟨three, true, true, false⟩ (disk true)).stdout.map String.ofList) =
    ["--> x/a.t.sol", "contract Foo {\n\n  function test_A() external {\n    // it a\n  }}", "<--", "\nsuccess: 2 issues fixed."] := by cbv

set_option maxRecDepth 16000 in
private theorem fix_ends : (checkRun env (fixArgs true) (disk true)).exit = .code 0 := by cbv

/-- C118 -/
example := haveI := lawful_ascii; C118_announced (env := env) (a := fixArgs false) (fs := disk true) fix_ends

set_option maxRecDepth 16000 in
/-- C118: two trees cannot be worked on, and two of the four problems are announced as fixable. -/
example : (checkRun env (fixArgs false) (disk true)).stderr.getLast? = some (.checkSummary 4 2) := by cbv

set_option maxRecDepth 16000 in
private theorem unsaved : (checkRun env ⟨[pa "a.tree"], true, false, false⟩ (disk false)).stdout = [c!"\nsuccess: 2 issues fixed."] ∧
    (checkRun env ⟨[pa "a.tree"], true, false, false⟩ (disk false)).exit = .code 0 := by
  refine ⟨?_, ?_⟩ <;> cbv

set_option maxRecDepth 16000 in
private theorem unsaved_check : (checkRun env ⟨[pa "a.tree"], false, false, false⟩ (disk false)).stderr.getLast? = some (.checkSummary 2 2) := by cbv

/-- **C119** is false in general: `check --fix` reports success and 2 fixed issues, but the file cannot be written, and both are still there. -/
theorem C119_false : ∃ (U : Ucd) (_ : @LawfulUcd U), ¬ ∀ (env : Env) (a : CheckArgs) (fs : Fs) (m n k n' k' : Nat), a.fix = true → a.stdout = false →
    (checkRun env { a with fix := false } fs).stderr.getLast? = some (.checkSummary n k) →
    (checkRun env a fs).exit = .code 0 → (checkRun env a fs).stdout = [c!"\nsuccess: " ++ natToStr m ++ (if m = 1 then c!" issue" else c!" issues") ++ c!" fixed."] →
    (checkRun env { a with fix := false } (checkRun env a fs).fs).stderr.getLast? = some (.checkSummary n' k') → n' + m ≤ n := by
  refine ⟨asciiUcd, lawful_ascii, fun h => ?_⟩
  haveI := lawful_ascii
  have hfs : (checkRun env ⟨[pa "a.tree"], true, false, false⟩ (disk false)).fs = disk false := by
    have hd : disk false = ⟨(disk false).state, fun _ => false⟩ := rfl
    obtain ⟨_, shown, _, _, _, ⟨h1, h2⟩, _⟩ := C117_check env ⟨[pa "a.tree"], true, false, false⟩ (disk false)
    have h3 : ∀ p, (checkRun env ⟨[pa "a.tree"], true, false, false⟩ (disk false)).fs.state p = (disk false).state p := by
      intro p
      have := h2 p
      rw [if_neg (by simp [disk])] at this
      exact this
    generalize (checkRun env ⟨[pa "a.tree"], true, false, false⟩ (disk false)).fs = r at h1 h3
    obtain ⟨s, w⟩ := r
    have e1 : s = (disk false).state := funext h3
    have e2 : w = (disk false).writable := h1
    rw [e1, e2]
  have := h env ⟨[pa "a.tree"], true, false, false⟩ (disk false) 2 2 2 2 2 rfl rfl unsaved_check unsaved.2 unsaved.1 (by rw [hfs]; exact unsaved_check)
  omega

end Bulloak
