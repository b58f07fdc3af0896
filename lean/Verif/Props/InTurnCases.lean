import Verif.Props.InTurn
import Verif.Props.CutCases
/-! # `check --fix` for two trees in turn: concrete cases meeting the hypotheses -/

namespace Bulloak
open Spec

attribute [local instance] asciiUcd

/-- Shares two tests with `treeFlat`, and has one of its own. -/
private def treeOther : Str := c!"T\n├── it n\n├── when p\n│   └── it a\n└── when z\n    └── it d"

/-- A contract with a variable and a helper. -/
private def fileBare : Layout := ⟨c!"// mine\n", some c!"T", c!"contract T ", c!"\n", [(.other c!"uint x;", c!"\n"), (fnSeg c!"helper" c!"", c!"\n")], c!"\n"⟩

set_option maxRecDepth 16000 in
private theorem other_seen : (treeOf treeOther).children.map asSeen = [some (some c!"test_N", .function), some (some c!"test_WhenP", .function), some (some c!"test_WhenZ", .function)] := by cbv
set_option maxRecDepth 16000 in
private theorem first_seen : (treeOf treeFlat).children.map asSeen = [some (some c!"test_WhenP", .function), some (some c!"test_C", .function), some (some c!"whenQ", .modifier),
    some (some c!"test_WhenQ", .function), some (some c!"test_WhenY", .function), some (some c!"test_WhenZ", .function)] := by cbv
set_option maxRecDepth 16000 in
private theorem other_readable : (treeOf treeOther).children.all readableOf = true := by cbv
set_option maxRecDepth 16000 in
private theorem other_apart : distinctOf (treeOf treeOther).children = true := by cbv
set_option maxRecDepth 16000 in
private theorem other_title : sanitize (treeOf treeOther).identifier = c!"T" := by cbv
set_option maxRecDepth 16000 in
private theorem bare_none : ((treeOf treeFlat).children ++ (treeOf treeOther).children).all (fun f => ! decide (Present fileBare.parts f)) = true := by cbv

section
attribute [local irreducible] treeOf

/-- C149: the two trees, in either order. -/
example : ∃ P, Reader P anyFile ∧
    (∃ (mid final : Str) (u v w : SolUnit) (i k : Nat), fixContext P (caseOf treeFlat fileBare false) = .ok ({ caseOf treeFlat fileBare false with src := mid, pt := u }, i) ∧ P mid = some v ∧
      fixContext P { caseOf treeOther fileBare false with src := mid, pt := v } = .ok ({ caseOf treeOther fileBare false with src := final, pt := w }, k) ∧
      checkCtx { caseOf treeFlat fileBare false with src := final, pt := w } = .ok [] ∧ checkCtx { caseOf treeOther fileBare false with src := final, pt := w } = .ok []) ∧
    (∃ (mid final : Str) (u v w : SolUnit) (i k : Nat), fixContext P (caseOf treeOther fileBare false) = .ok ({ caseOf treeOther fileBare false with src := mid, pt := u }, i) ∧ P mid = some v ∧
      fixContext P { caseOf treeFlat fileBare false with src := mid, pt := v } = .ok ({ caseOf treeFlat fileBare false with src := final, pt := w }, k) ∧
      checkCtx { caseOf treeFlat fileBare false with src := final, pt := w } = .ok [] ∧ checkCtx { caseOf treeOther fileBare false with src := final, pt := w } = .ok []) := by
  obtain ⟨P, hP, hPt⟩ := reader_exists anyFile
  have hfit : fileBare.Fits anyFile := fitsOf_fits (by decide +kernel)
  have hno : ∀ f, f ∈ (treeOf treeFlat).children ∨ f ∈ (treeOf treeOther).children → ¬ Present fileBare.parts f := fun f h => by
    simpa using List.all_eq_true.1 bare_none f (List.mem_append.2 h)
  exact ⟨P, hP, C149_either anyFile_generated hP (caseOf_hir treeFlat fileBare false) (caseOf_hir treeOther fileBare false) (flat_called.trans other_title.symm)
    (fun f hf => (readableOf_legible (List.all_eq_true.1 flat_legible f hf)).2.2) (fun f hf => (readableOf_legible (List.all_eq_true.1 other_readable f hf)).2.2)
    (distinctOf_distinct flat_unlike) (distinctOf_distinct other_apart) ⟨rfl, rfl⟩ (by unfold SameOrder; rw [other_seen, first_seen]; decide +kernel) hfit
    ⟨rfl, rfl⟩ ⟨hPt _ hfit, hPt _ hfit⟩ (by rw [flat_called]; rfl) (by decide) hno⟩

end

end Bulloak
