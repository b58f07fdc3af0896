import Verif.Props.Cut
import Verif.Props.WrapCases
/-! # Deleting code from the Solidity file: concrete cases meeting the hypotheses -/

namespace Bulloak
open Spec

def noTwiceOf (fns : List HFn) (parts : List SolPart) : Bool :=
  fns.all (fun f => (List.range parts.length).all (fun i => (List.range parts.length).all (fun j => decide (i = j) ||
    !((parts[i]?.any (fun p => decide (Matches f p))) && (parts[j]?.any (fun p => decide (Matches f p)))))))

theorem noTwiceOf_noTwice {fns : List HFn} {parts : List SolPart} (h : noTwiceOf fns parts = true) : NoTwice fns parts := by
  intro f hf i j p q hi hj hp hq
  have h1 := List.all_eq_true.1 (List.all_eq_true.1 (List.all_eq_true.1 h f hf) i (List.mem_range.2 (List.getElem?_eq_some_iff.1 hi).1)) j
    (List.mem_range.2 (List.getElem?_eq_some_iff.1 hj).1)
  rw [hi, hj] at h1
  simpa [hp, hq] using h1

attribute [local instance] asciiUcd

/-- `fileFlat` without a test, a modifier, a test in the middle and the variable. -/
private def fileCut : Layout := ⟨[], some c!"T", c!"contract T ", c!"\n",
  [(fnSeg c!"test_WhenP" c!"a();", c!"\n"), (fnSeg c!"test_WhenQ" c!"b();", c!"\n\n"), (fnSeg c!"test_WhenZ" c!"", c!"\n")], c!"\n"⟩

set_option maxRecDepth 16000 in
theorem flat_once : noTwiceOf (treeOf treeFlat).children fileFlat.parts = true := by cbv
set_option maxRecDepth 16000 in
theorem flat_legible : (treeOf treeFlat).children.all readableOf = true := by cbv
set_option maxRecDepth 16000 in
theorem flat_unlike : distinctOf (treeOf treeFlat).children = true := by cbv
set_option maxRecDepth 16000 in
/-- What is deleted. -/
private theorem cut_gone : ((treeOf treeFlat).children.filter (fun f => !decide (Present fileCut.parts f))).map (fun f => (String.ofList f.identifier, decide (f.ty = .function), decide (Present fileFlat.parts f))) =
    [("test_C", true, true), ("whenQ", false, true), ("test_WhenY", true, true)] := by cbv

private theorem cut_from : CutFrom fileFlat.contract fileCut.contract := ⟨rfl, by decide +kernel⟩

section
attribute [local irreducible] treeOf

/-- C136: three functions are reported, the variable is not. -/
example : ∃ u vs, FirstContract u fileCut.contract ∧ checkCtx { caseOf treeFlat fileFlat false with src := fileCut.text, pt := u } = .ok vs ∧ ∀ v, v ∈ vs ↔ ∃ f i,
    (treeOf treeFlat).children[i]? = some f ∧ Present fileFlat.parts f ∧ ¬ Present fileCut.parts f ∧ ¬ (false = true ∧ f.ty = .modifier) ∧
      v = ⟨.matchingFunctionMissing f i, .code c!"a.tree" f.span.start.line⟩ := by
  haveI := lawful_ascii
  obtain ⟨P, hP, hPt⟩ := reader_exists anyFile
  have hfit : fileCut.Fits anyFile := fitsOf_fits (by decide +kernel)
  obtain ⟨u, hu, hfc⟩ := hP _ hfit
  have hflat : FirstContract (caseOf treeFlat fileFlat false).pt fileFlat.contract := ⟨0, [], rfl⟩
  obtain ⟨vs, h1, _, h3⟩ := C136_check (ctx := caseOf treeFlat fileFlat false) (src := fileCut.text) (caseOf_hir _ _ _) (flat_check false) hflat hfc cut_from (noTwiceOf_noTwice flat_once)
  exact ⟨u, vs, hfc, h1, h3⟩

/-- C136: the fix adds them. -/
example : ∃ P u, Reader P anyFile ∧ P fileCut.text = some u ∧ ∃ (L' : Layout) (u' : SolUnit) (k : Nat),
    fixContext P { caseOf treeFlat fileFlat false with src := fileCut.text, pt := u } = .ok ({ caseOf treeFlat fileFlat false with src := L'.text, pt := u' }, k) ∧
    (fileCut.segs.map Prod.fst).Sublist (L'.segs.map Prod.fst) ∧ checkCtx { caseOf treeFlat fileFlat false with src := L'.text, pt := u' } = .ok [] := by
  haveI := lawful_ascii
  obtain ⟨P, hP, hPt⟩ := reader_exists anyFile
  have hfit : fileCut.Fits anyFile := fitsOf_fits (by decide +kernel)
  obtain ⟨u, hu, hfc⟩ := hP _ hfit
  have hflat : FirstContract (caseOf treeFlat fileFlat false).pt fileFlat.contract := ⟨0, [], rfl⟩
  obtain ⟨L', u', k, h1, _, _, _, _, _, _, h2, _, h3⟩ := C136_fix anyFile_generated hP (ctx := caseOf treeFlat fileFlat false) (caseOf_hir _ _ _) (flat_check false)
    (fun f hf => (readableOf_legible (List.all_eq_true.1 flat_legible f hf)).2.2) (distinctOf_distinct flat_unlike) hflat (noTwiceOf_noTwice flat_once) hfit (by decide) cut_from
    (fun h => by cases h.1) hu
  exact ⟨P, u, hP, hu, L', u', k, h1, h2, h3⟩

end

/-- The tree file, and a Solidity file. -/
private def deskCut (L : Layout) : Fs :=
  ⟨fun p => if p = ⟨[], c!"a.tree"⟩ then .text treeFlat else if p = ⟨[], c!"a.t.sol"⟩ then .text L.text else .absent, fun _ => true⟩

private def envCut : Env :=
  ⟨some, fun s => if s = fileFlat.text then some [.contract fileFlat.contract] else if s = fileCut.text then some [.contract fileCut.contract] else none, fun c => some c.src, id⟩

private def argsCut : CheckArgs := ⟨[⟨[], c!"a.tree"⟩], false, false, true⟩

private theorem cut_sol : SolOf ⟨[], c!"a.tree"⟩ ⟨[], c!"a.t.sol"⟩ := (solOf_iff _ _).2 (by decide +kernel)

section
attribute [local irreducible] treeOf

/-- C136: `check -m` succeeds before, and exits with 1 after, as tests are deleted too. -/
example : (checkRun envCut argsCut (deskCut fileCut)).exit = .code 1 := by
  haveI := lawful_ascii
  have hne : fileCut.text ≠ fileFlat.text := by decide +kernel
  have hu : envCut.solParse fileFlat.text = some [.contract fileFlat.contract] := by simp [envCut]
  have hu' : envCut.solParse fileCut.text = some [.contract fileCut.contract] := by simp [envCut, hne]
  have hsol : ∀ L, (deskCut L).state ⟨[], c!"a.t.sol"⟩ = .text L.text := fun _ => by simp [deskCut]
  have htree : ∀ L, (deskCut L).state ⟨[], c!"a.tree"⟩ = .text treeFlat := fun _ => by simp [deskCut]
  have hpass : (checkRun envCut argsCut (deskCut fileFlat)).exit = .code 0 := by
    have ho : Opens envCut true (deskCut fileFlat) ⟨[], c!"a.tree"⟩ (caseOf treeFlat fileFlat true) :=
      ⟨treeFlat, _, _, fileFlat.text, _, htree _, flat_translate, cut_sol, hsol _, hu, rfl⟩
    rcases C51_exit (env := envCut) (a := argsCut) (fs := deskCut fileFlat) rfl with ⟨h, _⟩ | ⟨_, _, t, hm, h⟩ | ⟨_, t, hm, ctx, h1, h2⟩
    · exact h
    · rw [List.mem_singleton.1 hm] at h
      exact absurd (flat_check true) (h _ ho)
    · rw [List.mem_singleton.1 hm] at h1
      rw [opens_unique h1 ho, flat_check true] at h2
      cases h2
  refine (C136_exit (env := envCut) (a := argsCut) (fs := deskCut fileFlat) rfl (List.mem_singleton.2 rfl) cut_sol (fun t ht => by rw [List.mem_singleton.1 ht, htree, htree])
    (fun t ht hne => absurd (List.mem_singleton.1 ht) hne) (htree _) (n := (treeOf treeFlat).identifier) (fns := (treeOf treeFlat).children) flat_translate (hsol _) (hsol _) hu hu' ⟨0, [], rfl⟩ ⟨0, [], rfl⟩
    cut_from (noTwiceOf_noTwice flat_once) hpass).1 ?_
  have hm : ("test_C", true, true) ∈ ((treeOf treeFlat).children.filter (fun f => !decide (Present fileCut.parts f))).map (fun f => (String.ofList f.identifier, decide (f.ty = .function), decide (Present fileFlat.parts f))) := by
    rw [cut_gone]; simp
  obtain ⟨f, hf, e⟩ := List.mem_map.1 hm
  obtain ⟨hf, hp⟩ := List.mem_filter.1 hf
  simp only [Prod.mk.injEq, decide_eq_true_eq] at e
  have hp' : ¬ Present fileCut.parts f := by simpa using hp
  exact ⟨f, hf, e.2.2, hp', fun h => by rw [e.2.1] at h; cases h.2⟩

end

set_option maxRecDepth 16000 in
theorem flat_sorted : inOrderOf (treeOf treeFlat).children fileFlat = true := by cbv
set_option maxRecDepth 16000 in
theorem flat_called : sanitize (treeOf treeFlat).identifier = c!"T" := by cbv

section
attribute [local irreducible] treeOf

/-- C136: the deletion as a step. -/
example : Step envCut anyFile c!"a.tree" ⟨[], c!"a.tree"⟩ ⟨[], c!"a.t.sol"⟩ (deskCut fileFlat) (put (deskCut fileFlat) ⟨[], c!"a.t.sol"⟩ fileCut.text) :=
  C136_step (env := envCut) (L := fileFlat) (text := treeFlat) (n := (treeOf treeFlat).identifier) (fns := (treeOf treeFlat).children) (by simp [deskCut]) flat_translate (inOrderOf_inOrder flat_sorted) (noTwiceOf_noTwice flat_once) cut_from
    (fitsOf_fits (by decide +kernel)) (by decide) (by rw [flat_called]; rfl)

end
end Bulloak
