import Verif.Props.Tidy
import Verif.Props.CutCases
/-! # Files after `check --fix`: a concrete case meeting the hypotheses -/

namespace Bulloak
open Spec

attribute [local instance] asciiUcd

/-- Two tests of `treeABC`, in the wrong order. -/
private def fileMixed : Layout := ⟨[], some c!"T", c!"contract T ", c!"\n",
  [(fnSeg c!"test_C" c!" c(); ", c!"\n"), (fnSeg c!"test_B" c!" b(); ", c!"\n\n")], c!"\n"⟩

/-- Two functions of `treeFlat`. -/
private def filePair : Layout :=
  ⟨c!"// mine\n", some c!"T", c!"contract T ", c!"\n", [(fnSeg c!"test_C" c!" c(); ", c!"\n\n"), (fnSeg c!"test_WhenY" c!"", c!"\n")], c!"\n"⟩

set_option maxRecDepth 16000 in
private theorem mixed_readable : (treeOf treeABC).children.all readableOf = true := by cbv

set_option maxRecDepth 16000 in
private theorem mixed_distinct : distinctOf (treeOf treeABC).children = true := by cbv

set_option maxRecDepth 16000 in
private theorem mixed_name : sanitize (treeOf treeABC).identifier = c!"T" := by cbv

set_option maxRecDepth 16000 in
private theorem mixed_ascii : (treeOf treeABC).children.all (fun f => asciiOf (emitFunction f)) = true := by cbv

set_option maxRecDepth 16000 in
private theorem mixed_only : onlyTreeOf (treeOf treeABC).children fileMixed = true := by cbv

set_option maxRecDepth 16000 in
private theorem mixed_declared : declaredOf (treeOf treeABC).children fileMixed = true := by cbv

set_option maxRecDepth 16000 in
private theorem mixed_triple : noTripleOf (treeOf treeABC).children fileMixed = true := by cbv

set_option maxRecDepth 16000 in
private theorem mixed_translate : translate id .default treeABC = .ok ⟨[treeOf treeABC]⟩ := treeOf_eq (by cbv)

set_option maxRecDepth 16000 in
private theorem pair_only : onlyTreeOf (treeOf treeFlat).children filePair = true := by cbv

set_option maxRecDepth 16000 in
private theorem pair_order : inOrderOf (treeOf treeFlat).children filePair = true := by cbv

private def apath : FPath := ⟨c!"t/", c!"a.tree"⟩
private def bpath : FPath := ⟨c!"t/", c!"b.tree"⟩

private def fourFiles : Fs := ⟨fun p => if p = apath then .text treeABC else if p = ⟨c!"t/", c!"a.t.sol"⟩ then .text fileMixed.text
  else if p = bpath then .text treeFlat else if p = ⟨c!"t/", c!"b.t.sol"⟩ then .text filePair.text else .absent, fun _ => true⟩

section
attribute [local irreducible] treeOf

private theorem pair_same (L : Layout) (h : L.name = some c!"T") {n : Str} (hn : sanitize n = c!"T") : Renamed (sanitize n) L L :=
  .same (by rw [hn, h]; intro m hm; exact (Option.some.inj hm).symm)

/-- C144: both files have the functions of their trees afterwards. -/
example : ∃ P, Reader P anyFile ∧ ∃ r, r = checkRun ⟨some, P, fun c => some c.src, id⟩ ⟨[apath, bpath], true, false, false⟩ fourFiles ∧ r.exit = .code 0 ∧
    (∃ L' : Layout, r.fs.state ⟨c!"t/", c!"a.t.sol"⟩ = .text L'.text ∧ ExactlyTree (treeOf treeABC).children L'.parts) ∧
    ∃ L' : Layout, r.fs.state ⟨c!"t/", c!"b.t.sol"⟩ = .text L'.text ∧ ExactlyTree (treeOf treeFlat).children L'.parts := by
  haveI := lawful_ascii
  obtain ⟨P, hP, _⟩ := reader_exists anyFile
  have hsa : SolOf apath ⟨c!"t/", c!"a.t.sol"⟩ := (solOf_iff _ _).2 (by decide +kernel)
  have hsb : SolOf bpath ⟨c!"t/", c!"b.t.sol"⟩ := (solOf_iff _ _).2 (by decide +kernel)
  have own : OwnFiles [apath, bpath] := by
    refine List.pairwise_cons.2 ⟨?_, List.pairwise_singleton _ _⟩
    intro b hb p h1 h2
    rw [List.mem_singleton.1 hb] at h2
    rw [(solOf_iff _ _).1 h1] at h2
    revert h2
    rw [solOf_iff]
    decide +kernel
  have ta : fourFiles.state apath = .text treeABC := by decide +kernel
  have tb : fourFiles.state bpath = .text treeFlat := by decide +kernel
  have hfa : fileMixed.Fits anyFile := fitsOf_fits (by decide +kernel)
  have hfb : filePair.Fits anyFile := fitsOf_fits (by decide +kernel)
  have main := C144_disk (env := ⟨some, P, fun c => some c.src, id⟩) (a := ⟨[apath, bpath], true, false, false⟩) (fs := fourFiles)
    anyFile_generated hP (fun ctx L h1 h2 _ => ⟨L, by rw [← h1], h2, rfl, rfl⟩) rfl rfl rfl own (by
      intro t ht
      rcases List.mem_cons.1 ht with rfl | ht
      · exact ⟨treeABC, _, (treeOf treeABC).children, _, fileMixed, fileMixed, ta, mixed_translate,
          fun f hf => (readableOf_legible (List.all_eq_true.1 mixed_readable f hf)).2.2, distinctOf_distinct mixed_distinct, hsa, by decide +kernel, hfa, hfa,
          asciiOf_ascii (by decide +kernel), pair_same _ rfl mixed_name, by decide, onlyTreeOf_only mixed_only,
          .inr ⟨noTripleOf_triple mixed_triple, asciiOf_ascii (by decide +kernel), fun f hf => asciiOf_ascii (List.all_eq_true.1 mixed_ascii f hf),
            declaredOf_declared mixed_declared⟩⟩
      · rw [List.mem_singleton.1 ht]
        exact ⟨treeFlat, _, (treeOf treeFlat).children, _, filePair, filePair, tb, flat_translate,
          fun f hf => (readableOf_legible (List.all_eq_true.1 flat_legible f hf)).2.2, distinctOf_distinct flat_unlike, hsb, by decide +kernel, hfb, hfb,
          asciiOf_ascii (by decide +kernel), pair_same _ rfl flat_called, by decide, onlyTreeOf_only pair_only, .inl (inOrderOf_inOrder pair_order)⟩)
    (fun _ _ _ _ => rfl)
  obtain ⟨La, a1, _, a2⟩ := main.2 apath (by simp) _ _ _ _ ta mixed_translate hsa
  obtain ⟨Lb, b1, _, b2⟩ := main.2 bpath (by simp) _ _ _ _ tb flat_translate hsb
  exact ⟨P, hP, _, rfl, main.1, ⟨La, a1, a2⟩, Lb, b1, b2⟩

end

end Bulloak
