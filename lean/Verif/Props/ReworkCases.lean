import Verif.Props.Rework
import Verif.Props.CutCases
/-! # Working on the Solidity file: concrete cases meeting the hypotheses -/

namespace Bulloak
open Spec

attribute [local instance] asciiUcd

/-- `fileFlat` after some work: a test is renamed, the modifier has become a function, a test has another body, the variable is gone, and there is a helper and another variable. -/
private def fileWork : Layout := ⟨[], some c!"T", c!"contract T ", c!"\n",
  [(.other c!"uint y;", c!"\n"), (fnSeg c!"test_WhenP" c!"other();", c!"\n"), (fnSeg c!"test_D" c!"", c!"\n"), (fnSeg c!"whenQ" c!"", c!"\n"),
    (fnSeg c!"test_WhenQ" c!"b();", c!"\n"), (fnSeg c!"helper" c!"", c!"\n"), (fnSeg c!"test_WhenY" c!"", c!"\n"), (fnSeg c!"test_WhenZ" c!"", c!"\n")], c!"\n"⟩

def oursOf (fns : List HFn) (parts : List SolPart) : List (Option (Option Str × SolFnTy)) :=
  (parts.filter (fun p => fns.any (fun f => decide (Matches f p)))).map seen

theorem oursOf_eq (fns : List HFn) (parts : List SolPart) : oursOf fns parts = Ours fns parts := by
  unfold oursOf Ours
  congr 1
  apply List.filter_congr
  intro p _
  rw [Bool.eq_iff_iff]
  simp

set_option maxRecDepth 16000 in
private theorem work_ours : oursOf (treeOf treeFlat).children fileWork.parts = [some (some c!"test_WhenP", .function), some (some c!"test_WhenQ", .function),
    some (some c!"test_WhenY", .function), some (some c!"test_WhenZ", .function)] := by cbv
set_option maxRecDepth 16000 in
theorem flat_ours : oursOf (treeOf treeFlat).children fileFlat.parts = [some (some c!"test_WhenP", .function), some (some c!"test_C", .function), some (some c!"whenQ", .modifier),
    some (some c!"test_WhenQ", .function), some (some c!"test_WhenY", .function), some (some c!"test_WhenZ", .function)] := by cbv
set_option maxRecDepth 16000 in
/-- What is gone. -/
private theorem work_gone : ((treeOf treeFlat).children.filter (fun f => !decide (Present fileWork.parts f))).map (fun f => (String.ofList f.identifier, decide (f.ty = .function), decide (Present fileFlat.parts f))) =
    [("test_C", true, true), ("whenQ", false, true)] := by cbv

section
attribute [local irreducible] treeOf

private theorem work_reworked : Reworked (treeOf treeFlat).children fileFlat.contract fileWork.contract := by
  refine ⟨rfl, ?_⟩
  rw [← oursOf_eq, ← oursOf_eq]
  rw [show oursOf (treeOf treeFlat).children fileWork.contract.parts = _ from work_ours, show oursOf (treeOf treeFlat).children fileFlat.contract.parts = _ from flat_ours]
  decide +kernel

/-- It is not just a deletion. -/
example : ¬ CutFrom fileFlat.contract fileWork.contract := fun h => absurd h.parts (by decide +kernel)

/-- C137: the renamed test and the modifier that became a function are reported, nothing else is. -/
example : ∃ u vs, FirstContract u fileWork.contract ∧ checkCtx { caseOf treeFlat fileFlat false with src := fileWork.text, pt := u } = .ok vs ∧ ∀ v, v ∈ vs ↔ ∃ f i,
    (treeOf treeFlat).children[i]? = some f ∧ Present fileFlat.parts f ∧ ¬ Present fileWork.parts f ∧ ¬ (false = true ∧ f.ty = .modifier) ∧
      v = ⟨.matchingFunctionMissing f i, .code c!"a.tree" f.span.start.line⟩ := by
  haveI := lawful_ascii
  obtain ⟨P, hP, hPt⟩ := reader_exists anyFile
  have hfit : fileWork.Fits anyFile := fitsOf_fits (by decide +kernel)
  obtain ⟨u, hu, hfc⟩ := hP _ hfit
  have hflat : FirstContract (caseOf treeFlat fileFlat false).pt fileFlat.contract := ⟨0, [], rfl⟩
  obtain ⟨vs, h1, _, h3⟩ := C137_check (ctx := caseOf treeFlat fileFlat false) (src := fileWork.text) (caseOf_hir _ _ _) (flat_check false) hflat hfc work_reworked (noTwiceOf_noTwice flat_once)
  exact ⟨u, vs, hfc, h1, h3⟩

/-- C137: the fix adds the two. -/
example : ∃ P u, Reader P anyFile ∧ P fileWork.text = some u ∧ ∃ (L' : Layout) (u' : SolUnit) (k : Nat),
    fixContext P { caseOf treeFlat fileFlat false with src := fileWork.text, pt := u } = .ok ({ caseOf treeFlat fileFlat false with src := L'.text, pt := u' }, k) ∧
    (fileWork.segs.map Prod.fst).Sublist (L'.segs.map Prod.fst) ∧ checkCtx { caseOf treeFlat fileFlat false with src := L'.text, pt := u' } = .ok [] := by
  haveI := lawful_ascii
  obtain ⟨P, hP, hPt⟩ := reader_exists anyFile
  have hfit : fileWork.Fits anyFile := fitsOf_fits (by decide +kernel)
  obtain ⟨u, hu, hfc⟩ := hP _ hfit
  have hflat : FirstContract (caseOf treeFlat fileFlat false).pt fileFlat.contract := ⟨0, [], rfl⟩
  obtain ⟨L', u', k, h1, _, _, _, _, _, _, h2, _, h3⟩ := C137_fix anyFile_generated hP (ctx := caseOf treeFlat fileFlat false) (caseOf_hir _ _ _) (flat_check false)
    (fun f hf => (readableOf_legible (List.all_eq_true.1 flat_legible f hf)).2.2) (distinctOf_distinct flat_unlike) hflat (noTwiceOf_noTwice flat_once) hfit (by decide) work_reworked
    (fun h => by cases h.1) hu
  exact ⟨P, u, hP, hu, L', u', k, h1, h2, h3⟩

end

/-- The functions of `fileFlat` with other bodies and other code between them. -/
private def fileSame : Layout := ⟨[], some c!"T", c!"contract T ", c!"\n",
  [(fnSeg c!"setUp" c!"", c!"\n"), (fnSeg c!"test_WhenP" c!"z();", c!"\n"), (fnSeg c!"test_C" c!"y();", c!"\n"), (.fn .modifier (some c!"whenQ") c!"modifier whenQ() { v(); _; }", c!"\n"),
    (fnSeg c!"test_WhenQ" c!"x();", c!"\n"), (fnSeg c!"test_WhenY" c!"", c!"\n"), (.other c!"uint x;", c!"\n"), (fnSeg c!"test_WhenZ" c!"w();", c!"\n"), (fnSeg c!"test_More" c!"", c!"\n")], c!"\n"⟩

set_option maxRecDepth 16000 in
private theorem same_ours : oursOf (treeOf treeFlat).children fileSame.parts = oursOf (treeOf treeFlat).children fileFlat.parts := by cbv

/-- The tree file, and a Solidity file. -/
private def deskWork (L : Layout) : Fs :=
  ⟨fun p => if p = ⟨[], c!"a.tree"⟩ then .text treeFlat else if p = ⟨[], c!"a.t.sol"⟩ then .text L.text else .absent, fun _ => true⟩

private def envWork : Env :=
  ⟨some, fun s => if s = fileFlat.text then some [.contract fileFlat.contract] else if s = fileWork.text then some [.contract fileWork.contract] else none, fun c => some c.src, id⟩

private def argsWork : CheckArgs := ⟨[⟨[], c!"a.tree"⟩], false, false, true⟩

private theorem work_sol : SolOf ⟨[], c!"a.tree"⟩ ⟨[], c!"a.t.sol"⟩ := (solOf_iff _ _).2 (by decide +kernel)

section
attribute [local irreducible] treeOf

/-- C137: the same verdict for other bodies and other code. -/
example : ∃ u, FirstContract u fileSame.contract ∧ checkCtx { caseOf treeFlat fileFlat false with src := fileSame.text, pt := u } = .ok [] :=
  ⟨[.contract fileSame.contract], ⟨0, [], rfl⟩, (C137_verdict (ctx := caseOf treeFlat fileFlat false) (caseOf_hir _ _ _) (s := fileFlat.contract) (s' := fileSame.contract) ⟨0, [], rfl⟩ ⟨0, [], rfl⟩ rfl
    (by rw [← oursOf_eq, ← oursOf_eq]; exact same_ours)).2 (flat_check false)⟩

/-- C137: a step of a session. -/
example : Step envWork anyFile c!"a.tree" ⟨[], c!"a.tree"⟩ ⟨[], c!"a.t.sol"⟩ (deskWork fileFlat) (put (deskWork fileFlat) ⟨[], c!"a.t.sol"⟩ fileWork.text) :=
  C137_step (env := envWork) (L := fileFlat) (text := treeFlat) (n := (treeOf treeFlat).identifier) (fns := (treeOf treeFlat).children) (by simp [deskWork]) flat_translate
    (inOrderOf_inOrder flat_sorted) (noTwiceOf_noTwice flat_once) work_reworked (fitsOf_fits (by decide +kernel)) (by decide) (by rw [flat_called]; rfl)

/-- C137: `check -m` succeeds before, and exits with 1 after, as a test is renamed. -/
example : (checkRun envWork argsWork (deskWork fileWork)).exit = .code 1 := by
  haveI := lawful_ascii
  have hne : fileWork.text ≠ fileFlat.text := by decide +kernel
  have hu : envWork.solParse fileFlat.text = some [.contract fileFlat.contract] := by simp [envWork]
  have hu' : envWork.solParse fileWork.text = some [.contract fileWork.contract] := by simp [envWork, hne]
  have hsol : ∀ L, (deskWork L).state ⟨[], c!"a.t.sol"⟩ = .text L.text := fun _ => by simp [deskWork]
  have htree : ∀ L, (deskWork L).state ⟨[], c!"a.tree"⟩ = .text treeFlat := fun _ => by simp [deskWork]
  have hpass : (checkRun envWork argsWork (deskWork fileFlat)).exit = .code 0 := by
    have ho : Opens envWork true (deskWork fileFlat) ⟨[], c!"a.tree"⟩ (caseOf treeFlat fileFlat true) :=
      ⟨treeFlat, _, _, fileFlat.text, _, htree _, flat_translate, work_sol, hsol _, hu, rfl⟩
    rcases C51_exit (env := envWork) (a := argsWork) (fs := deskWork fileFlat) rfl with ⟨h, _⟩ | ⟨_, _, t, hm, h⟩ | ⟨_, t, hm, ctx, h1, h2⟩
    · exact h
    · rw [List.mem_singleton.1 hm] at h
      exact absurd (flat_check true) (h _ ho)
    · rw [List.mem_singleton.1 hm] at h1
      rw [opens_unique h1 ho, flat_check true] at h2
      cases h2
  refine (C137_exit (env := envWork) (a := argsWork) (fs := deskWork fileFlat) rfl (List.mem_singleton.2 rfl) work_sol (fun t ht => by rw [List.mem_singleton.1 ht, htree, htree])
    (fun t ht hne => absurd (List.mem_singleton.1 ht) hne) (htree _) (n := (treeOf treeFlat).identifier) (fns := (treeOf treeFlat).children) flat_translate (hsol _) (hsol _) hu hu' ⟨0, [], rfl⟩ ⟨0, [], rfl⟩
    work_reworked (noTwiceOf_noTwice flat_once) hpass).1 ?_
  have hm : ("test_C", true, true) ∈ ((treeOf treeFlat).children.filter (fun f => !decide (Present fileWork.parts f))).map (fun f => (String.ofList f.identifier, decide (f.ty = .function), decide (Present fileFlat.parts f))) := by
    rw [work_gone]; simp
  obtain ⟨f, hf, e⟩ := List.mem_map.1 hm
  obtain ⟨hf, hp⟩ := List.mem_filter.1 hf
  simp only [Prod.mk.injEq, decide_eq_true_eq] at e
  have hp' : ¬ Present fileWork.parts f := by simpa using hp
  exact ⟨f, hf, e.2.2, hp', fun h => by rw [e.2.1] at h; cases h.2⟩

end

/-- `fileFlat` with a second `test_WhenP` at the end, and the same without the first one. -/
private def fileTwice : Layout := { fileFlat with segs := fileFlat.segs ++ [(fnSeg c!"test_WhenP" c!"", c!"\n")] }
private def fileLast : Layout := { fileFlat with segs := fileFlat.segs.tail ++ [(fnSeg c!"test_WhenP" c!"", c!"\n")] }

set_option maxRecDepth 16000 in
private theorem twice_check : checkCtx (caseOf treeFlat fileTwice false) = .ok [] := by cbv
set_option maxRecDepth 16000 in
private theorem last_check : (match checkCtx (caseOf treeFlat fileLast false) with
    | .ok vs => vs.map (fun v => match v.kind with
      | .functionOrderMismatch .. => "order"
      | _ => "other")
    | _ => []) = ["order"] := by cbv

/-- C136 and C137 need that no function of the tree occurs twice: otherwise deleting the first of two can make `check` complain about the order, although nothing is missing. -/
example : CutFrom fileTwice.contract fileLast.contract ∧ checkCtx (caseOf treeFlat fileTwice false) = .ok [] ∧ checkCtx (caseOf treeFlat fileLast false) ≠ .ok [] := by
  refine ⟨⟨rfl, by decide +kernel⟩, twice_check, fun h => ?_⟩
  have := last_check
  rw [h] at this
  cases this

end Bulloak
