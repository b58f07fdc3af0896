import Verif.Props.Rollback
import Verif.Props.CutCases
/-! # `check --fix` for a later version of the tree: a concrete case meeting the hypotheses -/

namespace Bulloak
open Spec

attribute [local instance] asciiUcd

/-- A later version of `treeFlat`: one test more, and some removed. -/
private def treeLater : Str := c!"T\n├── it n\n├── when p\n│   └── it a\n└── when z\n    └── it d"

set_option maxRecDepth 16000 in
private theorem later_seen : (treeOf treeLater).children.map asSeen = [some (some c!"test_N", .function), some (some c!"test_WhenP", .function), some (some c!"test_WhenZ", .function)] := by cbv
set_option maxRecDepth 16000 in
private theorem before_seen : (treeOf treeFlat).children.map asSeen = [some (some c!"test_WhenP", .function), some (some c!"test_C", .function), some (some c!"whenQ", .modifier),
    some (some c!"test_WhenQ", .function), some (some c!"test_WhenY", .function), some (some c!"test_WhenZ", .function)] := by cbv
set_option maxRecDepth 16000 in
private theorem later_readable : (treeOf treeLater).children.all readableOf = true := by cbv
set_option maxRecDepth 16000 in
private theorem later_apart : distinctOf (treeOf treeLater).children = true := by cbv
set_option maxRecDepth 16000 in
private theorem later_title : sanitize (treeOf treeLater).identifier = c!"T" := by cbv
set_option maxRecDepth 16000 in
private theorem later_found : (treeOf treeLater).children.all (fun f => decide (Present fileFlat.parts f → asSeen f ∈ (treeOf treeFlat).children.map asSeen)) = true := by cbv
set_option maxRecDepth 16000 in
private theorem later_missing : (match checkCtx (caseOf treeLater fileFlat false) with
    | .ok vs => vs.length
    | _ => 0) = 1 := by cbv

set_option maxRecDepth 16000 in
private theorem later_order : inOrderOf (treeOf treeLater).children fileFlat = true := by cbv
set_option maxRecDepth 16000 in
private theorem later_translate : translate id .default treeLater = .ok ⟨[treeOf treeLater]⟩ := treeOf_eq (by cbv)

private def rollTree : FPath := ⟨[], c!"a.tree"⟩
private def rollSol : FPath := ⟨[], c!"a.t.sol"⟩

/-- A tree file and a Solidity file. -/
private def rollDisk (tree sol : Str) : Fs := ⟨fun p => if p = rollTree then .text tree else if p = rollSol then .text sol else .absent, fun _ => true⟩

section
attribute [local irreducible] treeOf

/-- C148: the new test comes in, and the file conforms to both versions. -/
example : ∃ P, Reader P anyFile ∧ ∃ (L' : Layout) (u : SolUnit), fixContext P (caseOf treeLater fileFlat false) = .ok ({ caseOf treeLater fileFlat false with src := L'.text, pt := u }, 1) ∧
    checkCtx { caseOf treeLater fileFlat false with src := L'.text, pt := u } = .ok [] ∧ checkCtx { caseOf treeFlat fileFlat false with src := L'.text, pt := u } = .ok [] := by
  obtain ⟨P, hP, hPt⟩ := reader_exists anyFile
  have hfit : fileFlat.Fits anyFile := fitsOf_fits (by decide +kernel)
  have hone := later_missing
  cases hv : checkCtx (caseOf treeLater fileFlat false) with
  | ok vs =>
    rw [hv] at hone
    obtain ⟨L', u, h1, _, _, h2, h3⟩ := C148_trees anyFile_generated hP (ctx := caseOf treeLater fileFlat false) (old := caseOf treeFlat fileFlat false) (caseOf_hir treeLater fileFlat false)
      (caseOf_hir treeFlat fileFlat false) (later_title.trans flat_called.symm) (fun f hf => (readableOf_legible (List.all_eq_true.1 later_readable f hf)).2.2) (distinctOf_distinct later_apart)
      hfit (by decide) (caseOf_src treeLater fileFlat false) (hPt _ hfit) ⟨rfl, rfl⟩ (by unfold SameOrder; rw [later_seen, before_seen]; decide +kernel)
      (fun f hf => of_decide_eq_true (List.all_eq_true.1 later_found f hf)) ⟨rfl, rfl⟩ (flat_check false) hv
    exact ⟨P, hP, L', u, by rw [h1, show vs.length = 1 from hone], h2, h3⟩
  | err e => rw [hv] at hone; cases hone
  | panic => rw [hv] at hone; cases hone

/-- C148: the commands. -/
example : ∃ P, Reader P anyFile ∧ ∃ r, r = checkRun ⟨some, P, fun c => some c.src, id⟩ ⟨[rollTree], true, false, false⟩ (rollDisk treeLater fileFlat.text) ∧ r.exit = .code 0 ∧
    (checkRun ⟨some, P, fun c => some c.src, id⟩ ⟨[rollTree], false, false, false⟩ r.fs).exit = .code 0 ∧
    ∃ out, r.fs.state rollSol = .text out ∧ (checkRun ⟨some, P, fun c => some c.src, id⟩ ⟨[rollTree], false, false, false⟩ (rollDisk treeFlat out)).exit = .code 0 := by
  haveI := lawful_ascii
  obtain ⟨P, hP, hPt⟩ := reader_exists anyFile
  have hsol : SolOf rollTree rollSol := (solOf_iff _ _).2 (by decide +kernel)
  have hfit : fileFlat.Fits anyFile := fitsOf_fits (by decide +kernel)
  have hA : Ascii fileFlat.text := asciiOf_ascii (by decide +kernel)
  have st : ∀ x y, (rollDisk x y).state rollTree = .text x := fun _ _ => by simp [rollDisk]
  have ss : ∀ x y, (rollDisk x y).state rollSol = .text y := fun _ _ => by simp [rollDisk, rollTree, rollSol]
  have h0 : (checkRun ⟨some, P, fun c => some c.src, id⟩ ⟨[rollTree], false, false, false⟩ (rollDisk treeFlat fileFlat.text)).exit = .code 0 := by
    have ho : Opens ⟨some, P, fun c => some c.src, id⟩ false (rollDisk treeFlat fileFlat.text) rollTree (caseOf treeFlat fileFlat false) :=
      ⟨treeFlat, _, _, fileFlat.text, _, st _ _, flat_translate, hsol, ss _ _, hPt _ hfit, rfl⟩
    rcases C51_exit (env := ⟨some, P, fun c => some c.src, id⟩) (a := ⟨[rollTree], false, false, false⟩) (fs := rollDisk treeFlat fileFlat.text) rfl with ⟨h, _⟩ | ⟨_, _, t, hm, h⟩ | ⟨_, t, hm, ctx, h1, h2⟩
    · exact h
    · rw [List.mem_singleton.1 hm] at h
      exact absurd (flat_check false) (h _ ho)
    · rw [List.mem_singleton.1 hm] at h1
      rw [opens_unique h1 ho, flat_check false] at h2
      cases h2
  have main := fun (fs2 : Fs) => C148_exit (env := ⟨some, P, fun c => some c.src, id⟩) (fs2 := fs2) anyFile_generated hP (fun ctx L h1 h2 _ => ⟨L, by rw [← h1], h2, rfl, rfl⟩) hsol (by decide) (st treeFlat fileFlat.text) (ss _ _)
    later_translate flat_translate (later_title.trans flat_called.symm) (fun f hf => (readableOf_legible (List.all_eq_true.1 later_readable f hf)).2.2) (distinctOf_distinct later_apart)
    hfit (by decide) hA (inOrderOf_inOrder later_order) h0 (st treeLater fileFlat.text) ((ss _ _).trans (ss _ _).symm) rfl
  have hwr : ∃ out, (checkRun ⟨some, P, fun c => some c.src, id⟩ ⟨[rollTree], true, false, false⟩ (rollDisk treeLater fileFlat.text)).fs.state rollSol = .text out := by
    refine Classical.byCases (fun h : _ = (rollDisk treeLater fileFlat.text).state rollSol => ⟨_, h.trans (ss _ _)⟩) fun h => ?_
    obtain ⟨_, _, _, _, _, _, _, _, out, _, ho⟩ := C50_only_sol h
    exact ⟨out, ho⟩
  obtain ⟨out, ho⟩ := hwr
  obtain ⟨r1, r2, r3⟩ := main (rollDisk treeFlat out) (st _ _) ((ss _ _).trans ho.symm)
  exact ⟨P, hP, _, rfl, r1, r2, out, ho, r3⟩

end

end Bulloak
