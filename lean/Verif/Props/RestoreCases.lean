import Verif.Props.Restore
import Verif.Props.SolFileCases
import Verif.Props.EditCases2
/-! # `check --fix` undoes moves: a concrete case meeting the hypotheses -/

namespace Bulloak
open Spec

attribute [local instance] asciiUcd

/-- The tests of `treeABC`, in order. -/
private def fileKept : Layout := ⟨[], some c!"T", c!"contract T ", c!"\n",
  [(fnSeg c!"test_A" c!" x(); ", c!"\n"), (fnSeg c!"test_B" c!" test_A(); ", c!"\n\n"), (fnSeg c!"test_C" c!"", c!"\n")], c!"\n"⟩

/-- The first test moved to the end, with comments and blank lines in other places. -/
private def fileAway : Layout := ⟨c!"// moved\n", some c!"T", c!"contract T ", c!"\n",
  [(fnSeg c!"test_B" c!" test_A(); ", c!"\n"), (fnSeg c!"test_C" c!"", c!" // C\n"), (fnSeg c!"test_A" c!" x(); ", c!"\n")], c!"\n"⟩

set_option maxRecDepth 16000 in
private theorem away_readable : (treeOf treeABC).children.all readableOf = true := by cbv

set_option maxRecDepth 16000 in
private theorem away_distinct : distinctOf (treeOf treeABC).children = true := by cbv

set_option maxRecDepth 16000 in
private theorem away_name : sanitize (treeOf treeABC).identifier = c!"T" := by cbv

set_option maxRecDepth 16000 in
private theorem away_ascii : (treeOf treeABC).children.all (fun f => asciiOf (emitFunction f)) = true := by cbv

set_option maxRecDepth 16000 in
private theorem kept_check : checkCtx (caseOf treeABC fileKept false) = .ok [] := by cbv

set_option maxRecDepth 16000 in
private theorem kept_only : onlyTreeOf (treeOf treeABC).children fileKept = true := by cbv

set_option maxRecDepth 16000 in
private theorem away_declared : declaredOf (treeOf treeABC).children fileAway = true := by cbv

set_option maxRecDepth 16000 in
private theorem away_triple : noTripleOf (treeOf treeABC).children fileAway = true := by cbv

set_option maxRecDepth 16000 in
/-- The move is reported. -/
private theorem away_check : (match checkCtx (caseOf treeABC fileAway false) with | .ok vs => vs.length | _ => 0) = 1 := by cbv

private theorem away_shuffle : Shuffle fileKept fileAway := by
  unfold Shuffle
  simp only [fileKept, fileAway, List.map_cons, List.map_nil]
  exact (List.perm_append_comm (l₁ := [_, _]) (l₂ := [_]))

section
attribute [local irreducible] treeOf

/-- C141: the test is put back. -/
example : ∃ P, Reader P anyFile ∧ ∃ (L' : Layout) (u : SolUnit),
    fixContext P (caseOf treeABC fileAway false) = .ok ({ caseOf treeABC fileAway false with src := L'.text, pt := u }, 1) ∧
    L'.segs.map Prod.fst = [fnSeg c!"test_A" c!" x(); ", fnSeg c!"test_B" c!" test_A(); ", fnSeg c!"test_C" c!""] ∧
    checkCtx { caseOf treeABC fileAway false with src := L'.text, pt := u } = .ok [] := by
  obtain ⟨P, hP, hPt⟩ := reader_exists anyFile
  have hfit : fileAway.Fits anyFile := fitsOf_fits (by decide +kernel)
  obtain ⟨L', u, vs, h1, h2, _, _, h3, h4⟩ := C141_restore anyFile_generated hP (n := (treeOf treeABC).identifier)
    (ctx := caseOf treeABC fileAway false) (caseOf_hir _ _ _)
    (fun f hf => (readableOf_legible (List.all_eq_true.1 away_readable f hf)).2.2) rfl (distinctOf_distinct away_distinct) (caseOf_pt treeABC fileKept false)
    (L0 := fileKept) kept_check (onlyTreeOf_only kept_only) away_shuffle hfit hfit (caseOf_src _ _ _) (hPt _ hfit)
    (.same (by rw [away_name]; intro m hm; exact (Option.some.inj hm).symm)) (by decide) (noTripleOf_triple away_triple)
    (asciiOf_ascii (by decide +kernel)) (asciiOf_ascii (by decide +kernel)) (fun f hf => asciiOf_ascii (List.all_eq_true.1 away_ascii f hf))
    (declaredOf_declared away_declared)
  have := away_check
  rw [h1] at this
  have hl : vs.length = 1 := this
  rw [hl] at h2
  exact ⟨P, hP, L', u, h2, h3, h4⟩

end

end Bulloak
