import Verif.Props.Result
import Verif.Props.RestoreCases
/-! # The contract `check --fix` ends with: concrete cases meeting the hypotheses -/

namespace Bulloak
open Spec

attribute [local instance] asciiUcd

private def stub (name comment : Str) : Seg :=
  .fn .function (some name) (c!"function " ++ name ++ c!"() external {\n    // " ++ comment ++ c!"\n  }")

/-- The tests of `treeABC`; only the second one has been written. -/
private def fileStubs : Layout := ⟨[], some c!"T", c!"contract T ", c!"\n",
  [(stub c!"test_A" c!"it a", c!"\n"), (fnSeg c!"test_B" c!" b(); ", c!"\n\n"), (stub c!"test_C" c!"it c", c!"\n")], c!"\n"⟩

/-- The two others are deleted. -/
private def fileOne : Layout := ⟨c!"// less\n", some c!"T", c!"contract T ", c!"\n", [(fnSeg c!"test_B" c!" b(); ", c!"\n\n")], c!"\n"⟩

/-- Two tests in the wrong order. -/
private def fileCB : Layout := ⟨[], some c!"T", c!"contract T ", c!"\n",
  [(fnSeg c!"test_C" c!" c(); ", c!"\n"), (fnSeg c!"test_B" c!" b(); ", c!"\n\n")], c!"\n"⟩

set_option maxRecDepth 16000 in
private theorem stubs_readable : (treeOf treeABC).children.all readableOf = true := by cbv

set_option maxRecDepth 16000 in
private theorem stubs_distinct : distinctOf (treeOf treeABC).children = true := by cbv

set_option maxRecDepth 16000 in
private theorem stubs_name : sanitize (treeOf treeABC).identifier = c!"T" := by cbv

set_option maxRecDepth 16000 in
private theorem stubs_ascii : (treeOf treeABC).children.all (fun f => asciiOf (emitFunction f)) = true := by cbv

set_option maxRecDepth 16000 in
private theorem stubs_new : (treeOf treeABC).children.map newSeg = [stub c!"test_A" c!"it a", stub c!"test_B" c!"it b", stub c!"test_C" c!"it c"] := by cbv

set_option maxRecDepth 16000 in
private theorem stubs_check : checkCtx (caseOf treeABC fileStubs false) = .ok [] := by cbv

set_option maxRecDepth 16000 in
private theorem stubs_only : onlyTreeOf (treeOf treeABC).children fileStubs = true := by cbv

set_option maxRecDepth 16000 in
private theorem one_only : onlyTreeOf (treeOf treeABC).children fileOne = true := by cbv

set_option maxRecDepth 16000 in
private theorem one_order : inOrderOf (treeOf treeABC).children fileOne = true := by cbv

set_option maxRecDepth 16000 in
private theorem one_check : (match checkCtx (caseOf treeABC fileOne false) with | .ok vs => vs.length | _ => 0) = 2 := by cbv

set_option maxRecDepth 16000 in
private theorem two_only : onlyTreeOf (treeOf treeABC).children fileCB = true := by cbv

set_option maxRecDepth 16000 in
private theorem two_declared : declaredOf (treeOf treeABC).children fileCB = true := by cbv

set_option maxRecDepth 16000 in
private theorem two_triple : noTripleOf (treeOf treeABC).children fileCB = true := by cbv

set_option maxRecDepth 16000 in
private theorem stubs_fns : (treeOf treeABC).children.map nameOf = [(.function, c!"test_A"), (.function, c!"test_B"), (.function, c!"test_C")] := by cbv

section
attribute [local irreducible] treeOf

private theorem one_dropped : DroppedStubs (treeOf treeABC).children fileStubs fileOne := by
  refine ⟨by decide +kernel, ?_⟩
  have hnew : ∀ s ∈ [stub c!"test_A" c!"it a", stub c!"test_B" c!"it b", stub c!"test_C" c!"it c"], ∃ f ∈ (treeOf treeABC).children, s = newSeg f := by
    intro s hs
    rw [← stubs_new] at hs
    obtain ⟨f, hf, rfl⟩ := List.mem_map.1 hs
    exact ⟨f, hf, rfl⟩
  intro s hs
  simp only [fileStubs, List.map_cons, List.map_nil, List.mem_cons, List.not_mem_nil, or_false] at hs
  rcases hs with rfl | rfl | rfl
  · exact .inr (hnew _ (by simp))
  · exact .inl (by simp [fileOne])
  · exact .inr (hnew _ (by simp))

private theorem stubs_fn : ∀ f ∈ (treeOf treeABC).children, ReadableFn f :=
  fun f hf => (readableOf_legible (List.all_eq_true.1 stubs_readable f hf)).2.2

private theorem stubs_same (L : Layout) (h : L.name = some c!"T") : Renamed (sanitize (treeOf treeABC).identifier) L L :=
  .same (by rw [stubs_name, h]; intro m hm; exact (Option.some.inj hm).symm)

/-- C142: the deleted tests are there again. -/
example : ∃ P, Reader P anyFile ∧ ∃ (L' : Layout) (u : SolUnit),
    fixContext P (caseOf treeABC fileOne false) = .ok ({ caseOf treeABC fileOne false with src := L'.text, pt := u }, 2) ∧
    L'.segs.map Prod.fst = [stub c!"test_A" c!"it a", fnSeg c!"test_B" c!" b(); ", stub c!"test_C" c!"it c"] := by
  obtain ⟨P, hP, hPt⟩ := reader_exists anyFile
  have hfit : fileOne.Fits anyFile := fitsOf_fits (by decide +kernel)
  have hn := one_check
  cases hv : checkCtx (caseOf treeABC fileOne false) with
  | ok vs =>
    rw [hv] at hn
    obtain ⟨L', u, h1, _, _, h2⟩ := C142_rewrite anyFile_generated hP (n := (treeOf treeABC).identifier)
      (ctx := caseOf treeABC fileOne false) (caseOf_hir _ _ _) stubs_fn rfl (distinctOf_distinct stubs_distinct) (caseOf_pt treeABC fileStubs false)
      (L0 := fileStubs) stubs_check (onlyTreeOf_only stubs_only) one_dropped hfit hfit (caseOf_src _ _ _) (hPt _ hfit)
      (stubs_same _ rfl) (by decide) hv
    have hl : vs.length = 2 := hn
    rw [hl] at h1
    exact ⟨P, hP, L', u, h1, h2⟩
  | err e => rw [hv] at hn; cases hn
  | panic => rw [hv] at hn; cases hn

/-- C142: the outcome can be told from the file. -/
example : ∃ P, Reader P anyFile ∧ ∃ (L' : Layout) (u : SolUnit) (k : Nat),
    fixContext P (caseOf treeABC fileOne false) = .ok ({ caseOf treeABC fileOne false with src := L'.text, pt := u }, k) ∧
    Result (treeOf treeABC).children fileOne (L'.segs.map Prod.fst) := by
  obtain ⟨P, hP, hPt⟩ := reader_exists anyFile
  have hfit : fileOne.Fits anyFile := fitsOf_fits (by decide +kernel)
  have hn := one_check
  cases hv : checkCtx (caseOf treeABC fileOne false) with
  | ok vs =>
    obtain ⟨L', u, h1, _, _, h2⟩ := C142_result anyFile_generated hP (n := (treeOf treeABC).identifier)
      (ctx := caseOf treeABC fileOne false) (caseOf_hir _ _ _) stubs_fn rfl (distinctOf_distinct stubs_distinct) hfit hfit (caseOf_src _ _ _) (hPt _ hfit)
      (stubs_same _ rfl) (by decide) (onlyTreeOf_only one_only) (inOrderOf_inOrder one_order) hv
    exact ⟨P, hP, L', u, _, h1, h2⟩
  | err e => rw [hv] at hn; cases hn
  | panic => rw [hv] at hn; cases hn

/-- C142: a test is added, the others are sorted. -/
example : ∃ P, Reader P anyFile ∧ ∃ (L' : Layout) (u : SolUnit) (vs : List Violation), checkCtx (caseOf treeABC fileCB false) = .ok vs ∧
    fixContext P (caseOf treeABC fileCB false) = .ok ({ caseOf treeABC fileCB false with src := L'.text, pt := u }, vs.length) ∧
    Result (treeOf treeABC).children fileCB (L'.segs.map Prod.fst) := by
  obtain ⟨P, hP, hPt⟩ := reader_exists anyFile
  have hfit : fileCB.Fits anyFile := fitsOf_fits (by decide +kernel)
  obtain ⟨L', u, vs, h1, h2, _, _, h3⟩ := C142_sorted anyFile_generated hP (n := (treeOf treeABC).identifier)
    (ctx := caseOf treeABC fileCB false) (caseOf_hir _ _ _) stubs_fn rfl (distinctOf_distinct stubs_distinct) hfit hfit (caseOf_src _ _ _) (hPt _ hfit)
    (stubs_same _ rfl) (by decide) (onlyTreeOf_only two_only) (noTripleOf_triple two_triple) (asciiOf_ascii (by decide +kernel))
    (asciiOf_ascii (by decide +kernel)) (fun f hf => asciiOf_ascii (List.all_eq_true.1 stubs_ascii f hf)) (declaredOf_declared two_declared)
  exact ⟨P, hP, L', u, vs, h1, h2, h3⟩

/-- C142: what it means for the two tests in the wrong order. -/
example : Result (treeOf treeABC).children fileCB [stub c!"test_A" c!"it a", fnSeg c!"test_B" c!" b(); ", fnSeg c!"test_C" c!" c(); "] := by
  have h1 := stubs_new
  have h2 := stubs_fns
  unfold Result
  have hk : ∀ f : HFn, Present fileCB.parts f ↔ some (fnKey f) ∈ fileCB.keys := fun f => layout_present _ f
  have hkeys : fileCB.keys = [some (.function, c!"test_C"), some (.function, c!"test_B")] := by decide +kernel
  have h3 : (treeOf treeABC).children.length = 3 := by rw [← List.length_map (f := nameOf), h2]; rfl
  generalize (treeOf treeABC).children = fns at h1 h2 h3 ⊢
  match fns, h3 with
  | [a, b, c], _ =>
    simp only [List.map_cons, List.map_nil, List.cons.injEq, and_true, nameOf, Prod.mk.injEq] at h1 h2
    obtain ⟨ha, hb, hcc⟩ := h2
    refine .cons (.inr ⟨?_, h1.1.symm⟩) (.cons (.inl ⟨?_, ?_⟩) (.cons (.inl ⟨?_, ?_⟩) .nil))
    · rw [hk, hkeys, fnKey, ha.1, ha.2]
      decide +kernel
    · decide +kernel
    · rw [is_iff_key, fnKey, hb.1, hb.2]
      decide +kernel
    · decide +kernel
    · rw [is_iff_key, fnKey, hcc.1, hcc.2]
      decide +kernel

end

end Bulloak
