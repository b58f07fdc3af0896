import Verif.Props.Amid
import Verif.Props.CutCases
/-! # `check --fix` amid other code: concrete cases meeting the hypotheses -/

namespace Bulloak
open Spec

attribute [local instance] asciiUcd

/-- Two functions of `treeFlat`, between a variable and a helper. -/
private def fileAmid : Layout :=
  ⟨c!"// mine\n", some c!"T", c!"contract T ", c!"\n", [(.other c!"uint x;", c!"\n"), (fnSeg c!"test_C" c!" c(); ", c!"\n\n"), (fnSeg c!"helper" c!"", c!"\n"), (fnSeg c!"test_WhenY" c!"", c!"\n")], c!"\n"⟩

set_option maxRecDepth 16000 in
private theorem amid_order : inOrderOf (treeOf treeFlat).children fileAmid = true := by cbv

set_option maxRecDepth 16000 in
private theorem amid_once : noTwiceOf (treeOf treeFlat).children fileAmid.parts = true := by cbv

set_option maxRecDepth 16000 in
private theorem amid_other : (fileAmid.segs.map Prod.fst).filter (fun s => (treeOf treeFlat).children.all fun f => ! decide (s.Is f)) = [.other c!"uint x;", fnSeg c!"helper" c!""] := by cbv

/-- Functions of `treeFlat`, without its modifier, and other code. -/
private def fileLean : Layout :=
  ⟨[], some c!"T", c!"contract T ", c!"\n", [(.other c!"uint x;", c!"\n"), (fnSeg c!"test_C" c!" c(); ", c!"\n\n"), (fnSeg c!"helper" c!"", c!"\n"), (fnSeg c!"test_WhenQ" c!"", c!"\n")], c!"\n"⟩

set_option maxRecDepth 16000 in
private theorem lean_order : inOrderOf (treeOf treeFlat).children fileLean = true := by cbv

set_option maxRecDepth 16000 in
private theorem lean_once : noTwiceOf (treeOf treeFlat).children fileLean.parts = true := by cbv

set_option maxRecDepth 16000 in
private theorem lean_behind : ((treeOf treeFlat).children.zip (treeOf treeFlat).children.tail).all (fun p =>
    decide (p.1.ty = .modifier → ¬ Present fileLean.parts p.1 → Present fileLean.parts p.2 ∨ p.2.ty = .modifier)) = true := by cbv

set_option maxRecDepth 16000 in
private theorem lean_names : ((treeOf treeFlat).children.filter (fun f => decide (f.ty = .function ∨ Present fileLean.parts f))).map asSeen =
    [some (some c!"test_WhenP", .function), some (some c!"test_C", .function), some (some c!"test_WhenQ", .function), some (some c!"test_WhenY", .function),
      some (some c!"test_WhenZ", .function)] := by cbv

private def amidTree : FPath := ⟨c!"t/", c!"a.tree"⟩

private def amidDisk : Fs := ⟨fun p => if p = amidTree then .text treeFlat else if p = ⟨c!"t/", c!"a.t.sol"⟩ then .text fileAmid.text else .absent, fun _ => true⟩

section
attribute [local irreducible] treeOf

private theorem amid_same : Renamed (sanitize (treeOf treeFlat).identifier) fileAmid fileAmid :=
  .same (by rw [flat_called]; intro m hm; exact (Option.some.inj hm).symm)

private theorem amid_otherCode : OtherCode (treeOf treeFlat).children fileAmid = [.other c!"uint x;", fnSeg c!"helper" c!""] := by
  rw [← amid_other]
  unfold OtherCode
  apply List.filter_congr
  intro s _
  rw [Bool.eq_iff_iff, decide_eq_true_eq, List.all_eq_true]
  simp [Foreign]

/-- C146: the missing functions come in, and the variable and the helper stay. -/
example : ∃ P, Reader P anyFile ∧ ∃ u, P fileAmid.text = some u ∧ ∃ (L' : Layout) (u' : SolUnit) (k : Nat),
    fixContext P { caseOf treeFlat fileAmid false with pt := u } = .ok ({ caseOf treeFlat fileAmid false with src := L'.text, pt := u' }, k) ∧
    Ours (treeOf treeFlat).children L'.parts = (treeOf treeFlat).children.map asSeen ∧
    OtherCode (treeOf treeFlat).children L' = [.other c!"uint x;", fnSeg c!"helper" c!""] := by
  haveI := lawful_ascii
  obtain ⟨P, hP, _⟩ := reader_exists anyFile
  have hL : fileAmid.Fits anyFile := fitsOf_fits (by decide +kernel)
  obtain ⟨u, hu, _⟩ := hP _ hL
  have hl0 := ascii_lines (L := fileAmid) (asciiOf_ascii (by decide +kernel)) (by decide)
  have hc : FirstContract u fileAmid.contract := reader_first hP hL hu
  obtain ⟨vs, hv⟩ := check_total (ctx := { caseOf treeFlat fileAmid false with pt := u }) (caseOf_hir treeFlat fileAmid false) hc hl0.1 hl0.2
  obtain ⟨L', u', h1, _, _, h2, h3, _⟩ := C146_fix anyFile_generated hP (ctx := { caseOf treeFlat fileAmid false with pt := u }) (caseOf_hir treeFlat fileAmid false)
    (fun f hf => (readableOf_legible (List.all_eq_true.1 flat_legible f hf)).2.2) rfl (distinctOf_distinct flat_unlike) hL hL rfl hu amid_same (by decide)
    (inOrderOf_inOrder amid_order) (noTwiceOf_noTwice amid_once) hv
  exact ⟨P, hP, u, hu, L', u', _, h1, h2, h3.trans amid_otherCode⟩

/-- C146: with `-m`, all but the modifier comes in. -/
example : ∃ P, Reader P anyFile ∧ ∃ u, P fileLean.text = some u ∧ ∃ (L' : Layout) (u' : SolUnit) (k : Nat),
    fixContext P { caseOf treeFlat fileLean true with pt := u } = .ok ({ caseOf treeFlat fileLean true with src := L'.text, pt := u' }, k) ∧
    Ours (treeOf treeFlat).children L'.parts = [some (some c!"test_WhenP", .function), some (some c!"test_C", .function), some (some c!"test_WhenQ", .function),
      some (some c!"test_WhenY", .function), some (some c!"test_WhenZ", .function)] := by
  haveI := lawful_ascii
  obtain ⟨P, hP, _⟩ := reader_exists anyFile
  have hL : fileLean.Fits anyFile := fitsOf_fits (by decide +kernel)
  obtain ⟨u, hu, _⟩ := hP _ hL
  have hl0 := ascii_lines (L := fileLean) (asciiOf_ascii (by decide +kernel)) (by decide)
  have hc : FirstContract u fileLean.contract := reader_first hP hL hu
  have hs : Renamed (sanitize (treeOf treeFlat).identifier) fileLean fileLean := .same (by rw [flat_called]; intro m hm; exact (Option.some.inj hm).symm)
  obtain ⟨vs, hv⟩ := check_total (ctx := { caseOf treeFlat fileLean true with pt := u }) (caseOf_hir treeFlat fileLean true) hc hl0.1 hl0.2
  obtain ⟨L', u', h1, _, _, h2, _⟩ := C146_skip anyFile_generated hP (ctx := { caseOf treeFlat fileLean true with pt := u }) (caseOf_hir treeFlat fileLean true)
    (fun f hf => (readableOf_legible (List.all_eq_true.1 flat_legible f hf)).2.2) rfl (distinctOf_distinct flat_unlike) hL hL rfl hu hs (by decide)
    (inOrderOf_inOrder lean_order) (noTwiceOf_noTwice lean_once) (fun i f g hf hg =>
      of_decide_eq_true (List.all_eq_true.1 lean_behind (f, g) (List.mem_of_getElem? (i := i) (by rw [List.getElem?_zip_eq_some, List.getElem?_tail]; exact ⟨hf, hg⟩)))) hv
  exact ⟨P, hP, u, hu, L', u', _, h1, h2.trans lean_names⟩

/-- C146: on disk. -/
example : ∃ P, Reader P anyFile ∧ ∃ r, r = checkRun ⟨some, P, fun c => some c.src, id⟩ ⟨[amidTree], true, false, false⟩ amidDisk ∧ r.exit = .code 0 ∧
    ∃ L' : Layout, r.fs.state ⟨c!"t/", c!"a.t.sol"⟩ = .text L'.text ∧ Ours (treeOf treeFlat).children L'.parts = (treeOf treeFlat).children.map asSeen := by
  haveI := lawful_ascii
  obtain ⟨P, hP, _⟩ := reader_exists anyFile
  have hsa : SolOf amidTree ⟨c!"t/", c!"a.t.sol"⟩ := (solOf_iff _ _).2 (by decide +kernel)
  have ta : amidDisk.state amidTree = .text treeFlat := by decide +kernel
  have hL : fileAmid.Fits anyFile := fitsOf_fits (by decide +kernel)
  have main := C146_disk (env := ⟨some, P, fun c => some c.src, id⟩) (a := ⟨[amidTree], true, false, false⟩) (fs := amidDisk)
    anyFile_generated hP (fun ctx L h1 h2 _ => ⟨L, by rw [← h1], h2, rfl, rfl⟩) rfl rfl rfl (List.pairwise_singleton _ _) (by
      intro t ht
      rw [List.mem_singleton.1 ht]
      exact ⟨treeFlat, _, (treeOf treeFlat).children, _, fileAmid, fileAmid, ta, flat_translate,
        fun f hf => (readableOf_legible (List.all_eq_true.1 flat_legible f hf)).2.2, distinctOf_distinct flat_unlike, hsa, by decide +kernel, hL, hL,
        asciiOf_ascii (by decide +kernel), amid_same, by decide, inOrderOf_inOrder amid_order, noTwiceOf_noTwice amid_once⟩)
    (fun _ _ _ _ => rfl)
  obtain ⟨L', h1, _, h2⟩ := main.2 amidTree (by simp) _ _ _ _ ta flat_translate hsa
  exact ⟨P, hP, _, rfl, main.1, L', h1, h2⟩

end

end Bulloak
