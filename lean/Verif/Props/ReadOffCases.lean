import Verif.Props.ReadOff
import Verif.Props.ReworkCases
/-! # Reading the functions of the tree off a Solidity file: concrete cases meeting the hypotheses -/

namespace Bulloak
open Spec

attribute [local instance] asciiUcd

/-- `fileFlat` without the modifier. -/
private def fileBare : Layout := ⟨[], some c!"T", c!"contract T ", c!"\n",
  [(fnSeg c!"test_WhenP" c!"a();", c!"\n"), (fnSeg c!"test_C" c!"", c!"\n"), (.other c!"uint x;", c!"\n"), (fnSeg c!"test_WhenQ" c!"b();", c!"\n"), (fnSeg c!"test_WhenY" c!"", c!"\n"),
    (fnSeg c!"test_WhenZ" c!"", c!"\n")], c!"\n"⟩

set_option maxRecDepth 16000 in
private theorem flat_apart : distinctOf (treeOf treeFlat).children = true := by cbv

set_option maxRecDepth 16000 in
private theorem flat_names : (treeOf treeFlat).children.map asSeen = [some (some c!"test_WhenP", .function), some (some c!"test_C", .function), some (some c!"whenQ", .modifier),
    some (some c!"test_WhenQ", .function), some (some c!"test_WhenY", .function), some (some c!"test_WhenZ", .function)] := by cbv

set_option maxRecDepth 16000 in
private theorem bare_ours : oursOf (treeOf treeFlat).children fileBare.parts = [some (some c!"test_WhenP", .function), some (some c!"test_C", .function), some (some c!"test_WhenQ", .function),
    some (some c!"test_WhenY", .function), some (some c!"test_WhenZ", .function)] := by cbv

set_option maxRecDepth 16000 in
private theorem bare_once : noTwiceOf (treeOf treeFlat).children fileBare.parts = true := by cbv

set_option maxRecDepth 16000 in
private theorem bare_left : ((treeOf treeFlat).children.filter (fun f => decide (f.ty = .function))).map asSeen = [some (some c!"test_WhenP", .function), some (some c!"test_C", .function),
    some (some c!"test_WhenQ", .function), some (some c!"test_WhenY", .function), some (some c!"test_WhenZ", .function)] := by cbv

set_option maxRecDepth 16000 in
private theorem flat_title' : sanitize (treeOf treeFlat).identifier = c!"T" := by cbv

section
attribute [local irreducible] treeOf

/-- C145: `fileFlat` conforms, so its functions are read off in the order of the tree. -/
example : Ours (treeOf treeFlat).children fileFlat.contract.parts = (treeOf treeFlat).children.map asSeen :=
  ((C145_exact (ctx := caseOf treeFlat fileFlat false) (caseOf_hir _ _ _) rfl (distinctOf_distinct flat_apart) (s := fileFlat.contract) ⟨0, [], rfl⟩).1
    ⟨flat_check false, noTwiceOf_noTwice flat_once⟩).2

/-- C145: and the other way round. -/
example : checkCtx (caseOf treeFlat fileFlat false) = .ok [] := by
  refine ((C145_exact (ctx := caseOf treeFlat fileFlat false) (caseOf_hir _ _ _) rfl (distinctOf_distinct flat_apart) (s := fileFlat.contract) ⟨0, [], rfl⟩).2 ⟨?_, ?_⟩).1
  · intro m e
    rw [flat_title']
    exact (Option.some.inj e).symm
  · rw [← oursOf_eq, flat_names]
    exact flat_ours

/-- C145: without the modifier, the file conforms with `-m`. -/
example : checkCtx (caseOf treeFlat fileBare true) = .ok [] := by
  refine ((C145_conforms (ctx := caseOf treeFlat fileBare true) (caseOf_hir _ _ _) (distinctOf_distinct flat_apart) (s := fileBare.contract) ⟨0, [], rfl⟩).2
    ⟨?_, (treeOf treeFlat).children.filter (fun f => decide (f.ty = .function)), List.filter_sublist, ?_, ?_⟩).1
  · intro m e
    rw [flat_title']
    exact (Option.some.inj e).symm
  · intro f hf
    cases e : f.ty with
    | function => exact Or.inl (List.mem_filter.2 ⟨hf, decide_eq_true e⟩)
    | modifier => exact Or.inr ⟨rfl, rfl⟩
  · rw [← oursOf_eq, bare_left]
    exact bare_ours

/-- C145: and without `-m` it does not, since no function occurs twice in it. -/
example : checkCtx (caseOf treeFlat fileBare false) ≠ .ok [] := fun h => by
  have := ((C145_exact (ctx := caseOf treeFlat fileBare false) (caseOf_hir _ _ _) rfl (distinctOf_distinct flat_apart) (s := fileBare.contract) ⟨0, [], rfl⟩).1 ⟨h, noTwiceOf_noTwice bare_once⟩).2
  rw [← oursOf_eq, flat_names, show oursOf (treeOf treeFlat).children fileBare.contract.parts = _ from bare_ours] at this
  exact absurd this (by decide +kernel)

end

end Bulloak
