import Verif.Props.Edit4
import Verif.Props.EditCases2
/-! # A second tree: a concrete case -/

namespace Bulloak
open Spec
set_option linter.unusedSectionVars false

attribute [local instance] asciiUcd

/-- One tree. -/
def loneF : Str := c!"A::f\n└── when p\n    ├── it a\n    └── when q\n        └── it b"

/-- The same tree and another one. -/
def loneFG : Str := c!"A::f\n└── when p\n    ├── it a\n    └── when q\n        └── it b\n\nA::g\n└── when p\n    └── when z\n        └── it c"

/-- A file for `loneF`, with the name of the contract as a parameter. -/
def fileLone (name : Str) : Layout := ⟨[], some name, c!"contract " ++ name ++ c!" ", c!"\n",
  [(.fn .modifier (some c!"whenP") c!"modifier whenP() { _; }", c!"\n"), (fnSeg c!"test_WhenP" c!"a();", c!"\n"),
    (fnSeg c!"test_WhenQ" c!"b();", c!"\n")], c!"\n"⟩

set_option maxRecDepth 16000 in
theorem lone_parse : parse id loneF = .ok [onlyOf loneF] := onlyOf_eq (by cbv)

set_option maxRecDepth 16000 in
theorem lone2_length : (astsOf loneFG).length = 2 := by cbv

set_option maxRecDepth 16000 in
theorem lone2_split : astsOf loneFG = onlyOf loneFG :: (astsOf loneFG).drop 1 := by cbv

set_option maxRecDepth 16000 in
theorem lone2_title : titleOf (onlyOf loneFG) = titleOf (onlyOf loneF) := by cbv

set_option maxRecDepth 16000 in
theorem lone2_same : Resited (kids (onlyOf loneF)) (kids (onlyOf loneFG)) := resitedOf_resited (k := 8) (by cbv)

set_option maxRecDepth 16000 in
theorem lone_translate : translate id .default loneF = .ok ⟨[treeOf loneF]⟩ := treeOf_eq (by cbv)

set_option maxRecDepth 16000 in
theorem lone2_translate : translate id .default loneFG = .ok ⟨[treeOf loneFG]⟩ := treeOf_eq (by cbv)

set_option maxRecDepth 16000 in
theorem lone_check : checkCtx (caseOf loneF (fileLone c!"Af") false) = .ok [] := by cbv

set_option maxRecDepth 16000 in
theorem lone_title : (treeOf loneF).identifier = titleOf (onlyOf loneF) := by cbv

set_option maxRecDepth 16000 in
theorem lone2_name : (treeOf loneFG).identifier = c!"A" := by cbv

set_option maxRecDepth 16000 in
theorem lone2_names : (treeOf loneFG).children.map nameOf = [(.modifier, c!"whenP"), (.function, c!"test_FWhenP"), (.function, c!"test_FWhenQ"),
    (.function, c!"test_GWhenZ")] := by cbv

set_option maxRecDepth 16000 in
theorem lone_new : (treeOf loneFG).children.all (fun f => !(fileLone c!"Af").parts.any (fun p => decide (Matches f p)) ||
    (decide (f.ty = .modifier) && ((treeOf loneF).children.map nameOf).contains (nameOf f))) = true := by cbv

set_option maxRecDepth 16000 in
theorem lone2_readable : (treeOf loneFG).children.all readableOf = true := by cbv

set_option maxRecDepth 16000 in
theorem lone2_check : (match checkCtx { caseOf loneF (fileLone c!"Af") false with hir := ⟨[treeOf loneFG]⟩ } with | .ok vs => vs.length | _ => 9) = 4 := by cbv

section
attribute [local irreducible] treeOf astsOf onlyOf

theorem lone2_parse : parse id loneFG = .ok (onlyOf loneFG :: (astsOf loneFG).drop 1) := by
  rw [← lone2_split]; exact astsOf_length lone2_length

theorem lone2_more : (astsOf loneFG).drop 1 ≠ [] := by
  intro h
  have := lone2_length
  rw [lone2_split, h] at this
  cases this

theorem lone_only : ∀ f ∈ (treeOf loneFG).children, Present (fileLone c!"Af").parts f → f.ty = .modifier ∧ nameOf f ∈ (treeOf loneF).children.map nameOf := by
  rintro f hf ⟨p, hp, hm⟩
  have := List.all_eq_true.1 lone_new f hf
  simp only [Bool.or_eq_true, Bool.not_eq_true', List.any_eq_false, Bool.and_eq_true, decide_eq_true_eq, List.contains_iff_mem] at this
  rcases this with h | h
  · exact absurd hm (h p hp)
  · exact h

theorem lone_hir : (caseOf loneF (fileLone c!"Af") false).hir = ⟨[⟨titleOf (onlyOf loneF), (treeOf loneF).children⟩]⟩ := by
  rw [caseOf_hir, lone_title]

theorem lone_report : ∃ vs, checkCtx { caseOf loneF (fileLone c!"Af") false with hir := ⟨[⟨(treeOf loneFG).identifier, (treeOf loneFG).children⟩]⟩ } = .ok vs ∧
    vs.length = 4 := by
  have h := lone2_check
  rw [show (⟨[treeOf loneFG]⟩ : HRoot) = ⟨[⟨(treeOf loneFG).identifier, (treeOf loneFG).children⟩]⟩ from rfl] at h
  cases hv : checkCtx { caseOf loneF (fileLone c!"Af") false with hir := ⟨[⟨(treeOf loneFG).identifier, (treeOf loneFG).children⟩]⟩ } with
  | ok vs => rw [hv] at h; exact ⟨vs, rfl, h⟩
  | err e => exact nomatch e
  | panic => rw [hv] at h; cases h

/-- C109: the tests get the prefix `F`, and the contract is called `A`. -/
example : ∃ n part fns fns1 new, Splits (titleOf (onlyOf loneF)) n part ∧ (⟨[treeOf loneF]⟩ : HRoot) = ⟨[⟨titleOf (onlyOf loneF), fns⟩]⟩ ∧
    (⟨[treeOf loneFG]⟩ : HRoot) = ⟨[⟨n, fns1 ++ new⟩]⟩ ∧ fns1.map nameOf = (firstOnly (fns.map (prefixFn part))).map nameOf := by
  haveI := lawful_ascii
  obtain ⟨n, part, fns, fns1, new, h1, h2, h3, h4, _⟩ := C109_functions lone_parse lone2_parse lone2_more lone2_title lone2_same .default lone_translate lone2_translate
  exact ⟨n, part, fns, fns1, new, h1, h2, h3, h4⟩

/-- C109: the name and the three tests are reported. -/
example : ∃ vs, checkCtx { caseOf loneF (fileLone c!"Af") false with hir := ⟨[⟨(treeOf loneFG).identifier, (treeOf loneFG).children⟩]⟩ } = .ok vs ∧ vs.length = 4 ∧
    ∀ f i, (treeOf loneFG).children[i]? = some f → f.ty = .function → ⟨.matchingFunctionMissing f i, .code c!"a.tree" f.span.start.line⟩ ∈ vs := by
  haveI := lawful_ascii
  obtain ⟨vs, hv, hl⟩ := lone_report
  refine ⟨vs, hv, hl, fun f i hi hf => ?_⟩
  refine (C109_check (fun l => .refl l) lone_parse lone2_parse lone2_more lone2_title lone2_same .default (ctx := caseOf loneF (fileLone c!"Af") false) lone_hir lone_translate
    lone2_translate lone_check (s := (fileLone c!"Af").contract) ((findContract_iff _ _).1 rfl) lone_only hv _).2 (.inr ⟨f, i, hi, ?_, ?_, rfl⟩)
  · intro h; rw [hf] at h; cases h
  · rintro ⟨h, _⟩; cases h

/-- C109: the fix renames the contract and adds the tests; the old ones stay. -/
example : ∃ P, Reader P anyFile ∧ ∃ (L' : Layout) (u : SolUnit) (k : Nat),
    fixContext P { caseOf loneF (fileLone c!"Af") false with hir := ⟨[⟨(treeOf loneFG).identifier, (treeOf loneFG).children⟩]⟩ } =
      .ok ({ caseOf loneF (fileLone c!"Af") false with hir := ⟨[⟨(treeOf loneFG).identifier, (treeOf loneFG).children⟩]⟩, src := L'.text, pt := u }, k) ∧
    ((fileLone c!"Af").segs.map Prod.fst).Sublist (L'.segs.map Prod.fst) ∧
    checkCtx { caseOf loneF (fileLone c!"Af") false with hir := ⟨[⟨(treeOf loneFG).identifier, (treeOf loneFG).children⟩]⟩, src := L'.text, pt := u } = .ok [] := by
  haveI := lawful_ascii
  obtain ⟨P, hP, hPt⟩ := reader_exists anyFile
  obtain ⟨vs, hv, _⟩ := lone_report
  have hfit : (fileLone c!"Af").Fits anyFile := fitsOf_fits (by decide +kernel)
  have hfit1 : (fileLone c!"A").Fits anyFile := fitsOf_fits (by decide +kernel)
  obtain ⟨L', u, h1, _, h2, _, _, h3⟩ := C109_fix anyFile_generated hP (fun l => .refl l) lone_parse lone2_parse lone2_more lone2_title lone2_same .default
    (ctx := caseOf loneF (fileLone c!"Af") false) lone_hir lone_translate lone2_translate lone_check
    (fun f hf => (readableOf_legible (List.all_eq_true.1 lone2_readable f hf)).2.2) hfit (L1 := fileLone c!"A") hfit1 (caseOf_src _ _ _) (hPt _ hfit)
    (by
      rw [lone2_name, show sanitize c!"A" = c!"A" by decide +kernel]
      exact Renamed.other (pre := []) (post := c!" ") rfl (by decide) rfl (once_of_char (d := 'A') (by decide) (by decide +kernel)))
    (by decide) lone_only (fun h => by cases h.1) hv
  exact ⟨P, hP, L', u, _, h1, h2, h3⟩

end
end Bulloak
