import Verif.Props.Share
import Verif.Props.CutCases
/-! # Two trees for one contract: concrete cases meeting the hypotheses -/

namespace Bulloak
open Spec

attribute [local instance] asciiUcd

private def treeOne : Str := c!"T\n├── it a\n└── when p\n    └── it b"
private def treeThree : Str := c!"T\n├── when p\n│   └── it b\n└── it a"

set_option maxRecDepth 16000 in
private theorem one_seen : (treeOf treeOne).children.map asSeen = [some (some c!"test_A", .function), some (some c!"test_WhenP", .function)] := by cbv
set_option maxRecDepth 16000 in
private theorem three_seen : (treeOf treeThree).children.map asSeen = [some (some c!"test_WhenP", .function), some (some c!"test_A", .function)] := by cbv
set_option maxRecDepth 16000 in
private theorem one_apart : distinctOf (treeOf treeOne).children = true := by cbv
set_option maxRecDepth 16000 in
private theorem swapped_apart : distinctOf (treeOf treeThree).children = true := by cbv
set_option maxRecDepth 16000 in
private theorem one_title : sanitize (treeOf treeOne).identifier = c!"T" := by cbv
set_option maxRecDepth 16000 in
private theorem flat_names' : (treeOf treeFlat).children.map asSeen = [some (some c!"test_WhenP", .function), some (some c!"test_C", .function), some (some c!"whenQ", .modifier),
    some (some c!"test_WhenQ", .function), some (some c!"test_WhenY", .function), some (some c!"test_WhenZ", .function)] := by cbv

private def noFile : Layout := ⟨[], some c!"T", c!"contract T ", c!"\n", [], c!"\n"⟩

section
attribute [local irreducible] treeOf

/-- C147: both trees have the test for `p`, and they can share a contract. -/
example : ∃ (src : Str) (u : SolUnit), checkCtx { caseOf treeOne noFile false with src := src, pt := u } = .ok [] ∧ checkCtx { caseOf treeFlat noFile false with src := src, pt := u } = .ok [] := by
  obtain ⟨src, u, _, _, _, _, h1, h2⟩ := (C147_share (ctx := caseOf treeOne noFile false) (ctx' := caseOf treeFlat noFile false) (caseOf_hir treeOne noFile false)
    (caseOf_hir treeFlat noFile false) rfl rfl (distinctOf_distinct one_apart) (distinctOf_distinct flat_unlike)).2 ⟨one_title.trans flat_called.symm, by
      unfold SameOrder
      rw [one_seen, flat_names']
      decide +kernel⟩
  exact ⟨src, u, h1, h2⟩

/-- C147: these two have their tests in different orders, and no contract conforms to both. -/
example (src : Str) (u : SolUnit) (s : SolContract) (m : Str) (hs : FirstContract u s) (hn : s.name = some m) (h : checkCtx { caseOf treeOne noFile false with src := src, pt := u } = .ok []) :
    checkCtx { caseOf treeThree noFile false with src := src, pt := u } ≠ .ok [] := fun h' => by
  have := ((C147_share (ctx := caseOf treeOne noFile false) (ctx' := caseOf treeThree noFile false) (caseOf_hir treeOne noFile false)
    (caseOf_hir treeThree noFile false) rfl rfl (distinctOf_distinct one_apart) (distinctOf_distinct swapped_apart)).1 ⟨src, u, s, m, hs, hn, h, h'⟩).2
  unfold SameOrder at this
  rw [one_seen, three_seen] at this
  exact absurd this (by decide +kernel)

end

end Bulloak
