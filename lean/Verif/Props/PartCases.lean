import Verif.Props.Part
import Verif.Props.EditCases2
/-! # Renaming what follows the `::` in the title of a tree: concrete cases meeting the hypotheses -/

namespace Bulloak
open Spec

attribute [local instance] asciiUcd

private def partF : Str := c!"A::f\n└── when x\n    └── when y\n        └── it a"
private def partG : Str := c!"A::g\n├── it c\n└── when x\n    └── when u\n        └── it reverts"
/-- `partG` with another name. -/
private def partG' : Str := c!"A::mint\n├── it c\n└── when x\n    └── when u\n        └── it reverts"
private def partH : Str := c!"A::h\n└── when w\n    └── when u\n        └── it d"

private def named : Str := partF ++ c!"\n\n" ++ partG ++ c!"\n\n" ++ partH
private def named' : Str := partF ++ c!"\n\n" ++ partG' ++ c!"\n\n" ++ partH

/-- A file for `named`. -/
private def fileNamed : Layout := ⟨[], some c!"A", c!"contract A ", c!"\n",
  [(.fn .modifier (some c!"whenX") c!"modifier whenX() { _; }", c!"\n"), (fnSeg c!"test_FWhenY" c!"a();", c!"\n"), (fnSeg c!"test_GC" c!"b();", c!"\n"),
    (fnSeg c!"test_GWhenU" c!"c();", c!"\n"), (.fn .modifier (some c!"whenW") c!"modifier whenW() { _; }", c!"\n"), (fnSeg c!"test_HWhenU" c!"d();", c!"\n")], c!"\n"⟩

/-- The only tree of a text. -/
private def astOf (b : Str) : Ast := match parseOne id b with
  | .ok a => a
  | _ => .root Span.default [] []

private theorem astOf_eq {b : Str} (h : (match parseOne id b with | .ok _ => true | _ => false) = true) : parseOne id b = .ok (astOf b) := by
  unfold astOf
  cases e : parseOne id b with
  | ok a => rfl
  | err _ => rw [e] at h; cases h
  | panic => rw [e] at h; cases h

set_option maxRecDepth 16000 in
private theorem named_split : splitTrees named = [partF] ++ partG :: [partH] := by cbv
set_option maxRecDepth 16000 in
private theorem named_split' : splitTrees named' = [partF] ++ partG' :: [partH] := by cbv
set_option maxRecDepth 16000 in
private theorem named_translate : translate id .default named = .ok ⟨[treeOf named]⟩ := treeOf_eq (by cbv)
set_option maxRecDepth 16000 in
private theorem named_translate' : translate id .default named' = .ok ⟨[treeOf named']⟩ := treeOf_eq (by cbv)
set_option maxRecDepth 16000 in
private theorem named_ident : (treeOf named).identifier = c!"A" := by cbv
set_option maxRecDepth 16000 in
private theorem named_ident' : (treeOf named').identifier = c!"A" := by cbv
set_option maxRecDepth 16000 in
private theorem named_names : ((treeOf named).children.map HFn.identifier, (treeOf named').children.map HFn.identifier) =
    ([c!"whenX", c!"test_FWhenY", c!"test_GC", c!"test_GWhenU", c!"whenW", c!"test_HWhenU"],
      [c!"whenX", c!"test_FWhenY", c!"test_MintC", c!"test_MintWhenU", c!"whenW", c!"test_HWhenU"]) := by cbv
set_option maxRecDepth 16000 in
private theorem partF_parse : parseOne id partF = .ok (astOf partF) := astOf_eq (by cbv)
set_option maxRecDepth 16000 in
private theorem partG_parse : parseOne id partG = .ok (astOf partG) := astOf_eq (by cbv)
set_option maxRecDepth 16000 in
private theorem partG_parse' : parseOne id partG' = .ok (astOf partG') := astOf_eq (by cbv)
set_option maxRecDepth 16000 in
private theorem partH_parse : parseOne id partH = .ok (astOf partH) := astOf_eq (by cbv)
set_option maxRecDepth 16000 in
private theorem part_titles : [partF, partG, partG', partH].map (fun b => titleOf (astOf b)) = [c!"A::f", c!"A::g", c!"A::mint", c!"A::h"] := by cbv
set_option maxRecDepth 16000 in
private theorem part_resited : resitedOf 10 (kids (astOf partG)) (kids (astOf partG')) = true := by cbv
set_option maxRecDepth 16000 in
private theorem named_check : checkCtx (caseOf named fileNamed false) = .ok [] := by cbv
set_option maxRecDepth 16000 in
private theorem named_readable : (treeOf named').children.all readableOf = true := by cbv

set_option maxRecDepth 16000 in
private theorem named_new : (treeOf named').children.all (fun f => !decide (f.identifier ∈ [c!"test_MintC", c!"test_MintWhenU"]) || !fileNamed.parts.any (fun p => decide (Matches f p))) = true := by cbv

/-- The names of the tests of a tree. -/
private def testIds (b p : Str) : List Str := ((prefixedFns false [(astOf b, p)]).filter (fun f => f.ty = .function)).map HFn.identifier

set_option maxRecDepth 16000 in
private theorem part_ids : (testIds partF c!"f", testIds partG c!"g", testIds partG' c!"mint", testIds partH c!"h") =
    ([c!"test_FWhenY"], [c!"test_GC", c!"test_GWhenU"], [c!"test_MintC", c!"test_MintWhenU"], [c!"test_HWhenU"]) := by cbv

private theorem test_id {b n p : Str} (h : parseOne id b = .ok (astOf b)) (hs : Splits (titleOf (astOf b)) n p) {f : HFn} (ht : TestOf id false n b f) : f.identifier ∈ testIds b p := by
  obtain ⟨hty, a, q, e1, e2, e3⟩ := ht
  cases h.symm.trans e1
  obtain ⟨_, rfl⟩ := splits_unique hs e2
  exact List.mem_map_of_mem (List.mem_filter.2 ⟨e3, by simp [hty]⟩)

private theorem splits_f : Splits (titleOf (astOf partF)) c!"A" c!"f" := by
  have := part_titles; simp only [List.map_cons, List.map_nil, List.cons.injEq] at this; rw [this.1]; exact ⟨by decide, by decide⟩
private theorem splits_g : Splits (titleOf (astOf partG)) c!"A" c!"g" := by
  have := part_titles; simp only [List.map_cons, List.map_nil, List.cons.injEq] at this; rw [this.2.1]; exact ⟨by decide, by decide⟩
private theorem splits_g' : Splits (titleOf (astOf partG')) c!"A" c!"mint" := by
  have := part_titles; simp only [List.map_cons, List.map_nil, List.cons.injEq] at this; rw [this.2.2.1]; exact ⟨by decide, by decide⟩
private theorem splits_h : Splits (titleOf (astOf partH)) c!"A" c!"h" := by
  have := part_titles; simp only [List.map_cons, List.map_nil, List.cons.injEq] at this; rw [this.2.2.2.1]; exact ⟨by decide, by decide⟩

private theorem other_id {g : HFn} (h : ∃ c ∈ [partF] ++ [partH], TestOf id false c!"A" c g) : g.identifier ∈ [c!"test_FWhenY", c!"test_HWhenU"] := by
  have e := part_ids
  simp only [Prod.mk.injEq] at e
  obtain ⟨c, hc, ht⟩ := h
  simp only [List.cons_append, List.nil_append, List.mem_cons, List.not_mem_nil, or_false] at hc
  rcases hc with rfl | rfl
  · have := test_id partF_parse splits_f ht
    rw [e.1] at this
    simp at this ⊢
    exact .inl this
  · have := test_id partH_parse splits_h ht
    rw [e.2.2.2] at this
    simp at this ⊢
    exact .inr this

private theorem g_id {f : HFn} (h : TestOf id false c!"A" partG f) : f.identifier ∈ [c!"test_GC", c!"test_GWhenU"] := by
  have e := part_ids
  simp only [Prod.mk.injEq] at e
  exact e.2.1 ▸ test_id partG_parse splits_g h

private theorem g_id' {f : HFn} (h : TestOf id false c!"A" partG' f) : f.identifier ∈ [c!"test_MintC", c!"test_MintWhenU"] := by
  have e := part_ids
  simp only [Prod.mk.injEq] at e
  exact e.2.2.1 ▸ test_id partG_parse' splits_g' h

private theorem apart_of {l m : List Str} (h : ∀ x ∈ l, ∀ y ∈ m, y ≠ x) {b : Str} {bs : List Str} (h1 : ∀ f, TestOf id false c!"A" b f → f.identifier ∈ l)
    (h2 : ∀ g, (∃ c ∈ bs, TestOf id false c!"A" c g) → g.identifier ∈ m) : Apart id false c!"A" b bs :=
  fun f g hf hg => h _ (h1 f hf) _ (h2 g hg)

private theorem apart_g : Apart id false c!"A" partG ([partF] ++ [partH]) := apart_of (by decide) (fun _ => g_id) (fun _ => other_id)
private theorem apart_g' : Apart id false c!"A" partG' ([partF] ++ [partH]) := apart_of (by decide) (fun _ => g_id') (fun _ => other_id)

private theorem g_renamed : PartRenamed c!"A" c!"g" c!"mint" (astOf partG) (astOf partG') := ⟨splits_g, splits_g', resitedOf_resited part_resited⟩

section
attribute [local irreducible] treeOf astOf

private theorem named_hir : translate id .default named = .ok ⟨[⟨c!"A", (treeOf named).children⟩]⟩ := by
  rw [named_translate, ← named_ident]
private theorem named_hir' : translate id .default named' = .ok ⟨[⟨c!"A", (treeOf named').children⟩]⟩ := by
  rw [named_translate', ← named_ident']

/-- C135: `g` becomes `mint`. -/
example : Each (fun f f' => (TestOf id false c!"A" partG f ∧ TestOf id false c!"A" partG' f' ∧ NamedAnew c!"g" c!"mint" f f') ∨
      (¬ TestOf id false c!"A" partG f ∧ ¬ TestOf id false c!"A" partG' f' ∧ SameCode f f'))
    (treeOf named).children (treeOf named').children := by
  haveI := lawful_ascii
  obtain ⟨fns', h1, h2⟩ := C135_functions (trees_of_split named_split) (trees_of_split named_split') (by simp) partG_parse partG_parse' g_renamed named_hir apart_g apart_g'
  rw [named_hir'] at h1
  cases h1
  exact h2

/-- The file has no function of a new name. -/
private theorem named_absent {f : HFn} (hf : f ∈ (treeOf named').children) (h : TestOf id false c!"A" partG' f) : ¬ Present fileNamed.parts f := by
  rintro ⟨q, hq, hm⟩
  have := List.all_eq_true.1 named_new f hf
  simp only [Bool.or_eq_true, Bool.not_eq_true', List.any_eq_false, decide_eq_false_iff_not] at this
  rcases this with h' | h'
  · exact h' (g_id' h)
  · exact h' q hq (decide_eq_true hm)

/-- C135: two tests are missing. -/
example : ∃ vs, checkCtx { caseOf named fileNamed false with hir := ⟨[⟨c!"A", (treeOf named').children⟩]⟩ } = .ok vs ∧
    ∀ v, v ∈ vs ↔ ∃ f i, (treeOf named').children[i]? = some f ∧ TestOf id false c!"A" partG' f ∧ v = ⟨.matchingFunctionMissing f i, .code c!"a.tree" f.span.start.line⟩ := by
  haveI := lawful_ascii
  obtain ⟨vs, h1, _, h3⟩ := C135_check (ctx := caseOf named fileNamed false) (fns := (treeOf named).children) (trees_of_split named_split) (trees_of_split named_split') (by simp) partG_parse
    partG_parse' g_renamed (by rw [caseOf_hir, ← named_ident]) (by rw [caseOf_hir]; exact named_translate) named_hir' apart_g apart_g' named_check
    (fun s hs f hf ht => by rw [first_case hs]; exact named_absent hf ht)
  exact ⟨vs, h1, h3⟩

/-- C135: the fix adds them. -/
example : ∃ P, Reader P anyFile ∧ ∃ (L' : Layout) (u : SolUnit) (k : Nat), fixContext P { caseOf named fileNamed false with hir := ⟨[⟨c!"A", (treeOf named').children⟩]⟩ } =
      .ok ({ caseOf named fileNamed false with hir := ⟨[⟨c!"A", (treeOf named').children⟩]⟩, src := L'.text, pt := u }, k) ∧
    checkCtx { caseOf named fileNamed false with hir := ⟨[⟨c!"A", (treeOf named').children⟩]⟩, src := L'.text, pt := u } = .ok [] := by
  haveI := lawful_ascii
  obtain ⟨P, hP, hPt⟩ := reader_exists anyFile
  have hfit : fileNamed.Fits anyFile := fitsOf_fits (by decide +kernel)
  obtain ⟨L', u, k, _, h1, _, _, _, _, _, _, _, _, _, _, h2⟩ := C135_fix (ctx := caseOf named fileNamed false) (fns := (treeOf named).children) anyFile_generated hP (trees_of_split named_split)
    (trees_of_split named_split') (by simp) partG_parse partG_parse' g_renamed (by rw [caseOf_hir, ← named_ident]) (by rw [caseOf_hir]; exact named_translate) named_hir' apart_g apart_g' named_check
    (fun f hf => (readableOf_legible (List.all_eq_true.1 named_readable f hf)).2.2) hfit (caseOf_src _ _ _) (hPt _ hfit) (by decide) (fun f hf ht => named_absent hf ht)
    (fun h => by cases h.1)
  exact ⟨P, hP, L', u, k, h1, h2⟩

end

/-- A tree file and its Solidity file. -/
private def deskWith (text : Str) : Fs :=
  ⟨fun p => if p = ⟨[], c!"a.tree"⟩ then .text text else if p = ⟨[], c!"a.t.sol"⟩ then .text fileNamed.text else .absent, fun _ => true⟩

private def envNamed : Env := ⟨some, fun s => if s = fileNamed.text then some [.contract fileNamed.contract] else none, fun c => some c.src, id⟩

private def argsNamed : CheckArgs := ⟨[⟨[], c!"a.tree"⟩], false, false, false⟩

private theorem named_sol : SolOf ⟨[], c!"a.tree"⟩ ⟨[], c!"a.t.sol"⟩ := (solOf_iff _ _).2 (by decide +kernel)

section
attribute [local irreducible] treeOf astOf

/-- C135: `check` succeeds before, and exits with 1 after. -/
example : (checkRun envNamed argsNamed (deskWith named')).exit = .code 1 := by
  haveI := lawful_ascii
  have hu : envNamed.solParse fileNamed.text = some [.contract fileNamed.contract] := by simp [envNamed]
  have hsol : ∀ text, (deskWith text).state ⟨[], c!"a.t.sol"⟩ = .text fileNamed.text := fun _ => by simp [deskWith]
  have htree : ∀ text, (deskWith text).state ⟨[], c!"a.tree"⟩ = .text text := fun _ => by simp [deskWith]
  have hpass : (checkRun envNamed argsNamed (deskWith named)).exit = .code 0 := by
    have ho : Opens envNamed false (deskWith named) ⟨[], c!"a.tree"⟩ (caseOf named fileNamed false) :=
      ⟨named, _, _, fileNamed.text, _, htree _, named_translate, named_sol, hsol _, hu, rfl⟩
    rcases C51_exit (env := envNamed) (a := argsNamed) (fs := deskWith named) rfl with ⟨h, _⟩ | ⟨_, _, t, hm, h⟩ | ⟨_, t, hm, ctx, h1, h2⟩
    · exact h
    · rw [List.mem_singleton.1 hm] at h
      exact absurd named_check (h _ ho)
    · rw [List.mem_singleton.1 hm] at h1
      rw [opens_unique h1 ho, named_check] at h2
      cases h2
  have path : ∀ {p}, SolOf ⟨[], c!"a.tree"⟩ p → p = ⟨[], c!"a.t.sol"⟩ := fun hp => ((solOf_iff _ _).1 hp).trans ((solOf_iff _ _).1 named_sol).symm
  refine C135_exit (env := envNamed) (x := argsNamed) (fs := deskWith named) rfl ?_ (List.mem_singleton.2 rfl) (fun u hu hne => absurd (List.mem_singleton.1 hu) hne) (htree _) (htree _)
    (trees_of_split named_split) (trees_of_split named_split') (by simp) partG_parse partG_parse' g_renamed named_hir named_hir' apart_g apart_g' ?_ ?_ hpass
  · intro t ht p hp
    rw [List.mem_singleton.1 ht] at hp
    rw [path hp, hsol, hsol]
  · obtain ⟨fns', h1, h2⟩ := C135_functions (trees_of_split named_split) (trees_of_split named_split') (by simp) partG_parse partG_parse' g_renamed named_hir apart_g apart_g'
    rw [named_hir'] at h1
    cases h1
    have hnames := named_names
    simp only [Prod.mk.injEq] at hnames
    obtain ⟨f, hf, e⟩ : ∃ f ∈ (treeOf named').children, f.identifier = c!"test_MintC" := List.mem_map.1 (by rw [hnames.2]; simp)
    refine ⟨f, hf, ?_⟩
    obtain ⟨f0, hf0, ⟨_, t, _⟩ | ⟨_, _, hc⟩⟩ := each_mem_right h2 hf
    · exact t
    · have e1 : f.identifier = f0.identifier := congrArg (fun c => c.2.1) hc
      have := List.mem_map_of_mem (f := HFn.identifier) hf0
      rw [hnames.1, ← e1, e] at this
      exact absurd this (by decide)
  · intro p src u s hp hsrc hu' hs
    rw [path hp, hsol] at hsrc
    cases hsrc
    rw [hu] at hu'
    cases hu'
    rw [first_case hs]
    exact fun f hf ht => named_absent hf ht

end
end Bulloak
