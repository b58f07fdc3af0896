import Verif.Props.Fill
import Verif.Props.CutCases
/-! # `check --fix` on an empty contract: concrete cases meeting the hypotheses -/

namespace Bulloak
open Spec

attribute [local instance] asciiUcd

/-- What `scaffold` writes, but without functions. -/
private def fileEmpty : Layout :=
  ⟨c!"// SPDX-License-Identifier: UNLICENSED\npragma solidity 0.8.0;\n\n", some c!"T", c!"contract T ", c!"\n", [], c!"\n"⟩

/-- Some functions of the tree. -/
private def fileSome : Layout :=
  ⟨c!"// mine\n", some c!"T", c!"contract T ", c!"\n", [(fnSeg c!"test_C" c!" c(); ", c!"\n\n"), (fnSeg c!"test_WhenY" c!"", c!"\n")], c!"\n"⟩

set_option maxRecDepth 16000 in
private theorem empty_check : (match checkCtx (caseOf treeFlat fileEmpty false) with | .ok vs => vs.length | _ => 0) = 6 := by cbv

set_option maxRecDepth 16000 in
private theorem some_check : (match checkCtx (caseOf treeFlat fileSome false) with | .ok vs => vs.length | _ => 0) = 4 := by cbv

set_option maxRecDepth 16000 in
private theorem some_only : onlyTreeOf (treeOf treeFlat).children fileSome = true := by cbv

set_option maxRecDepth 16000 in
private theorem some_order : inOrderOf (treeOf treeFlat).children fileSome = true := by cbv

private theorem some_blank : BlankGaps fileSome := by
  unfold BlankGaps Blank
  decide +kernel

section
attribute [local irreducible] treeOf

private theorem empty_shape : squeeze fileEmpty.text = squeeze (solFile c!"0.8.0" false (sanitize (treeOf treeFlat).identifier) []) := by
  rw [flat_called]
  decide +kernel

private theorem flat_named (L : Layout) (h : L.name = some c!"T") : ∀ m, L.name = some m → m = sanitize (treeOf treeFlat).identifier := by
  rw [flat_called, h]
  intro m hm
  exact (Option.some.inj hm).symm

private theorem flat_read : ∀ f ∈ (treeOf treeFlat).children, ReadableFn f :=
  fun f hf => (readableOf_legible (List.all_eq_true.1 flat_legible f hf)).2.2

/-- C143: the six functions are written as `scaffold` does. -/
example : ∃ P, Reader P anyFile ∧ ∃ (src' src : Str) (u : SolUnit),
    fixContext P (caseOf treeFlat fileEmpty false) = .ok ({ caseOf treeFlat fileEmpty false with src := src', pt := u }, 6) ∧
    scaffoldSource id ⟨false, c!"0.8.0", false⟩ treeFlat = .ok src ∧ squeeze src' = squeeze src := by
  haveI := lawful_ascii
  obtain ⟨P, hP, hPt⟩ := reader_exists anyFile
  have hfit : fileEmpty.Fits anyFile := fitsOf_fits (by decide +kernel)
  have hn := empty_check
  cases hv : checkCtx (caseOf treeFlat fileEmpty false) with
  | ok vs =>
    rw [hv] at hn
    have hl : vs.length = 6 := hn
    obtain ⟨src', src, u, h1, h2, h3⟩ := C143_scaffold anyFile_generated hP (ctx := caseOf treeFlat fileEmpty false) flat_translate
      (n := (treeOf treeFlat).identifier) (caseOf_hir _ _ _) flat_read rfl (distinctOf_distinct flat_unlike) (version := c!"0.8.0")
      (by decide) (by decide) (by decide) hfit (caseOf_src _ _ _) (hPt _ hfit) (flat_named _ rfl) (by decide) rfl (by unfold Blank; decide +kernel) empty_shape hv
    rw [hl] at h1
    exact ⟨P, hP, src', src, u, h1, h2, h3⟩
  | err e => rw [hv] at hn; cases hn
  | panic => rw [hv] at hn; cases hn

/-- C143: four functions are added to two. -/
example : ∃ P, Reader P anyFile ∧ ∃ (L' : Layout) (u : SolUnit) (ss : List Seg),
    fixContext P (caseOf treeFlat fileSome false) = .ok ({ caseOf treeFlat fileSome false with src := L'.text, pt := u }, 4) ∧
    Result (treeOf treeFlat).children fileSome ss ∧
    squeeze L'.text = squeeze (c!"// mine\n" ++ c!"contract T ") ++ c!"{" ++ ss.flatMap (fun s => squeeze s.text) ++ c!"}" ++ squeeze c!"\n" := by
  obtain ⟨P, hP, hPt⟩ := reader_exists anyFile
  have hfit : fileSome.Fits anyFile := fitsOf_fits (by decide +kernel)
  have hn := some_check
  cases hv : checkCtx (caseOf treeFlat fileSome false) with
  | ok vs =>
    rw [hv] at hn
    have hl : vs.length = 4 := hn
    obtain ⟨L', u, ss, h1, _, _, h2, h3⟩ := C143_text anyFile_generated hP (ctx := caseOf treeFlat fileSome false) (n := (treeOf treeFlat).identifier)
      (caseOf_hir _ _ _) flat_read rfl (distinctOf_distinct flat_unlike) hfit (caseOf_src _ _ _) (hPt _ hfit) (flat_named _ rfl) (by decide)
      (onlyTreeOf_only some_only) (inOrderOf_inOrder some_order) some_blank hv
    rw [hl] at h1
    exact ⟨P, hP, L', u, ss, h1, h2, h3⟩
  | err e => rw [hv] at hn; cases hn
  | panic => rw [hv] at hn; cases hn

end

end Bulloak
