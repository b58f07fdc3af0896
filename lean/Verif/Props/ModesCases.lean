import Verif.Props.Modes
import Verif.Props.EditCases3
/-! # Switching `-m` on and off: a concrete case -/

namespace Bulloak
open Spec
set_option linter.unusedSectionVars false

attribute [local instance] asciiUcd

/-- The tests of `loneF` without the modifier. -/
def fileBare : Layout := ⟨[], some c!"Af", c!"contract Af ", c!"\n", [(fnSeg c!"test_WhenP" c!"a();", c!"\n"), (fnSeg c!"test_WhenQ" c!"b();", c!"\n")], c!"\n"⟩

set_option maxRecDepth 16000 in
theorem bare_with : checkCtx (caseOf loneF fileBare true) = .ok [] := by cbv

set_option maxRecDepth 16000 in
theorem bare_without : (match checkCtx (caseOf loneF fileBare false) with | .ok vs => vs.length | _ => 9) = 1 := by cbv

set_option maxRecDepth 16000 in
theorem bare_readable : (treeOf loneF).children.all readableOf = true := by cbv

set_option maxRecDepth 16000 in
theorem bare_keys : fileBare.keys = ((treeOf loneF).children.filter HFn.isFunction).map (fun f => some (fnKey f)) := by cbv

set_option maxRecDepth 16000 in
theorem bare_names : (treeOf loneF).children.map HFn.identifier = [c!"whenP", c!"test_WhenP", c!"test_WhenQ"] := by cbv

set_option maxRecDepth 16000 in
theorem bare_title : sanitize (treeOf loneF).identifier = c!"Af" := by cbv

section
attribute [local irreducible] treeOf astsOf onlyOf

theorem bare_distinct : Distinct (treeOf loneF).children := distinct_ids (by rw [bare_names]; decide)

theorem bare_report : ∃ vs, checkCtx (caseOf loneF fileBare false) = .ok vs ∧ vs.length = 1 := by
  have h := bare_without
  cases hv : checkCtx (caseOf loneF fileBare false) with
  | ok vs => rw [hv] at h; exact ⟨vs, rfl, h⟩
  | err e => exact nomatch e
  | panic => rw [hv] at h; cases h

theorem bare_fits : fileBare.Fits anyFile := fitsOf_fits (by decide +kernel)

/-- C110: without `-m` the modifier is reported. -/
example : ∃ vs, checkCtx (caseOf loneF fileBare false) = .ok vs ∧ vs.length = 1 ∧ ∀ v ∈ vs, ∃ f i, f.ty = .modifier ∧ v = ⟨.matchingFunctionMissing f i, .code c!"a.tree" f.span.start.line⟩ := by
  obtain ⟨vs, hv, hl⟩ := bare_report
  obtain ⟨vs', h1, h2, _⟩ := C110_check (ctx := caseOf loneF fileBare false) (caseOf_hir _ _ _) bare_with (s := fileBare.contract) ((findContract_iff _ _).1 rfl)
  obtain rfl : vs = vs' := by
    have : checkCtx (caseOf loneF fileBare false) = .ok vs' := h1
    rw [hv] at this; exact Res.ok.inj this
  refine ⟨vs, hv, hl, fun v hm => ?_⟩
  obtain ⟨f, i, _, h3, _, h4⟩ := (h2 v).1 hm
  exact ⟨f, i, h3, h4⟩

/-- C110: it does not conform without `-m`. -/
example : ¬ ∀ f ∈ (treeOf loneF).children, f.ty = .modifier → Present fileBare.parts f := by
  intro h
  obtain ⟨vs, hv, hl⟩ := bare_report
  have : checkCtx (caseOf loneF fileBare false) = .ok [] :=
    (C110_both (ctx := caseOf loneF fileBare false) (caseOf_hir _ _ _) (s := fileBare.contract) ((findContract_iff _ _).1 rfl)).2 ⟨bare_with, h⟩
  rw [hv] at this
  rw [Res.ok.inj this] at hl
  cases hl

/-- C110: fixing without `-m` makes the file conform with and without `-m`. -/
example : ∃ P, Reader P anyFile ∧ ∃ (L' : Layout) (u : SolUnit), fixContext P (caseOf loneF fileBare false) = .ok ({ caseOf loneF fileBare false with src := L'.text, pt := u }, 1) ∧
    ∀ skip, checkCtx { caseOf loneF fileBare false with skipModifiers := skip, src := L'.text, pt := u } = .ok [] := by
  obtain ⟨P, hP, hPt⟩ := reader_exists anyFile
  obtain ⟨vs, hv, hl⟩ := bare_report
  obtain ⟨L', u, h1, _, _, _, h2⟩ := C110_fix anyFile_generated hP (ctx := caseOf loneF fileBare false) (caseOf_hir _ _ _)
    (fun f hf => (readableOf_legible (List.all_eq_true.1 bare_readable f hf)).2.2) bare_fits (caseOf_src _ _ _) (hPt _ bare_fits) (by decide) bare_distinct bare_with hv
  rw [hl] at h1
  exact ⟨P, hP, L', u, h1, h2⟩

/-- C110: and to consist of the modifier and the tests. -/
example : ∃ P, Reader P anyFile ∧ ∃ (L' : Layout) (u : SolUnit), fixContext P (caseOf loneF fileBare false) = .ok ({ caseOf loneF fileBare false with src := L'.text, pt := u }, 1) ∧
    Written (treeOf loneF).children L'.parts := by
  obtain ⟨P, hP, hPt⟩ := reader_exists anyFile
  obtain ⟨vs, hv, hl⟩ := bare_report
  obtain ⟨L', u, h1, _, h2, _⟩ := C110_complete anyFile_generated hP (ctx := caseOf loneF fileBare false) (caseOf_hir _ _ _) rfl
    (fun f hf => (readableOf_legible (List.all_eq_true.1 bare_readable f hf)).2.2) bare_fits bare_fits (caseOf_src _ _ _) (hPt _ bare_fits)
    (.same (by rw [bare_title]; intro m hm; exact (Option.some.inj hm).symm)) (by decide) bare_distinct List.filter_sublist ((written_iff_keys _ _ _).2 bare_keys) hv
  rw [hl] at h1
  exact ⟨P, hP, L', u, h1, h2⟩

end
end Bulloak
