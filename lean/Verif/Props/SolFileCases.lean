import Verif.Props.FixWhole
import Verif.Props.FixCases
import Verif.Props.EditCases
import Verif.Props.Keep
import Verif.Props.FixTwice
import Verif.Props.Crash
/-! # Valid Solidity files: concrete cases meeting the hypotheses -/

namespace Bulloak
open Spec
set_option linter.unusedSectionVars false

attribute [local instance] asciiUcd

/-- All files that can be divided into parts are valid. -/
def anyFile : SolGrammar := ⟨fun _ => True, fun _ => True, fun _ => True, fun _ => True⟩

theorem anyFile_generated : anyFile.HasGenerated := ⟨fun _ _ _ _ => trivial, fun _ _ => trivial, trivial⟩

instance (w : Str) : Decidable (Reserved w) :=
  inferInstanceAs (Decidable (w ∈ keywords ∨ ∃ t ∈ [c!"int", c!"uint", c!"bytes", c!"fixed", c!"ufixed"], t <+: w))

def identOf : Str → Bool
  | [] => false
  | d :: r => isWordStart d && r.all isWordChar

theorem identOf_ident {s : Str} (h : identOf s = true) : SolIdent s := by
  cases s with
  | nil => cases h
  | cons d r =>
    simp only [identOf, Bool.and_eq_true, List.all_eq_true] at h
    refine ⟨d, r, rfl, ?_, ?_⟩
    · have := h.1
      simp only [isWordStart, Bool.or_eq_true, Bool.and_eq_true, decide_eq_true_eq, beq_iff_eq] at this
      unfold IsLetter
      rcases this with ((h | h) | h) | h
      · exact .inl (.inl h)
      · exact .inl (.inr h)
      · exact .inr (.inl h)
      · exact .inr (.inr h)
    · intro c hc
      have := h.2 c hc
      simp only [isWordChar, isWordStart, Bool.or_eq_true, Bool.and_eq_true, decide_eq_true_eq, beq_iff_eq] at this
      simp only [isAsciiAlnum, Bool.or_eq_true, Bool.and_eq_true, decide_eq_true_eq]
      rcases this with (((h | h) | h) | h) | h
      · exact .inl (.inl (.inr h))
      · exact .inl (.inr h)
      · exact .inr (.inl h)
      · exact .inr (.inr h)
      · exact .inl (.inl (.inl h))

def readableOf (f : HFn) : Bool :=
  (identOf f.identifier && !decide (Reserved f.identifier)) && ((f.modifiers.getD []).all fun m => identOf m && !decide (Reserved m)) &&
    ((f.children.getD []).all fun b => match b with | .comment t => t.all fun c => !decide (c ∈ solTerminators) | .vmSkip => true)

theorem readableOf_legible {f : HFn} (h : readableOf f = true) : (SolIdent f.identifier ∧ ∀ m ∈ f.modifiers.getD [], SolIdent m) ∧
    (∀ t, .comment t ∈ f.children.getD [] → ∀ c ∈ t, c ∉ solTerminators) ∧ ReadableFn f := by
  simp only [readableOf, Bool.and_eq_true, List.all_eq_true, Bool.not_eq_true', decide_eq_false_iff_not] at h
  obtain ⟨⟨h1, h2⟩, h3⟩ := h
  have h4 : ∀ t, .comment t ∈ f.children.getD [] → ∀ c ∈ t, c ∉ solTerminators := by
    intro t ht c hc
    have := h3 _ ht
    simp only [List.all_eq_true, Bool.not_eq_true', decide_eq_false_iff_not] at this
    exact this c hc
  exact ⟨⟨identOf_ident h1.1, fun m hm => identOf_ident (h2 m hm).1⟩, h4,
    ⟨identOf_ident h1.1, h1.2⟩, fun m hm => ⟨identOf_ident (h2 m hm).1, (h2 m hm).2⟩, fun t ht c hc => solEnd_of (h4 t ht c hc)⟩

/-! ## C90 -/

private def tpath (name : Str) : FPath := ⟨c!"t/", name⟩

/-- A tree with marks of comments and braces in its actions. -/
private def markTree : Str := c!"A\n├── it /* x\n└── when b\n    ├── it c\n    └── given d\n        └── it }"

private def oneTree : Fs := ⟨fun p => if p = tpath c!"a.tree" then .text markTree else .absent, fun _ => true⟩

/-- A formatter that ends the file with a new line. -/
private def newline (s : Str) : Option Str := some (s ++ c!"\n")

private theorem newline_keeps : KeepsFiles newline anyFile := by
  intro src out v skip name fns hf ht _ hu
  cases hf
  refine ⟨v, usual_append hu (usual_lit (by decide)), ?_, trivial⟩
  unfold solTokens at ht ⊢
  cases hq : solRun .code src with
  | none => rw [hq] at ht; cases ht
  | some q =>
    rw [hq] at ht
    rw [run_append, hq]
    obtain ⟨q1, m⟩ := q
    simp only [Option.bind_some] at ht ⊢
    cases m with
    | code => simpa [solRun, solStep, solStart, isSolWs, solFinish] using ht
    | line => simpa [solRun, solStep, isSolEnd, solFinish] using ht
    | slash => simpa [solRun, solStep, solStart, isSolWs, solFinish] using ht
    | word w =>
      by_cases hw : w = c!"pragma"
      · simp [solFinish, hw] at ht
      · have : isWordChar '\n' = false := by decide
        simpa [solRun, solStep, solStart, isSolWs, solFinish, hw, this] using ht
    | block => simp [solFinish] at ht
    | blockStar => simp [solFinish] at ht
    | str q s => simp [solFinish] at ht
    | escape q s => simp [solFinish] at ht
    | pragma s => simp [solFinish] at ht

set_option maxRecDepth 16000 in
private theorem mark_contract : (contractOf markTree).isSome = true := by cbv

private theorem mark_translate : translate id .default markTree = .ok ⟨[⟨(treeOf markTree).identifier, (treeOf markTree).children⟩]⟩ := by
  obtain ⟨c, hc⟩ := Option.isSome_iff_exists.1 mark_contract
  rw [contractOf_eq hc]; simp [treeOf, hc]

set_option maxRecDepth 16000 in
private theorem mark_distinct : decide (((treeOf markTree).children.filter HFn.isFunction).map HFn.identifier).Nodup = true := by cbv

set_option maxRecDepth 16000 in
private theorem mark_name : sanitize (treeOf markTree).identifier = c!"A" := by cbv

set_option maxRecDepth 16000 in
private theorem mark_readable : (treeOf markTree).children.all readableOf = true := by cbv

/-! ## Layouts -/

private def startsOf : Str → Bool
  | [] => false
  | c :: _ => isWordChar c || isQuote c || isSym c

private theorem startsOf_starts {s : Str} (h : startsOf s = true) : StartsTok s := by
  cases s with
  | nil => cases h
  | cons c r =>
    simp only [startsOf, Bool.or_eq_true, beq_iff_eq] at h
    exact ⟨c, r, rfl, by rcases h with (h | h) | h <;> simp [h]⟩

private def endsOf (s : Str) : Bool := s.getLast? == some '}' || s.getLast? == some ';'

private theorem endsOf_ends {s : Str} (h : endsOf s = true) : EndsPart s := by
  simp only [endsOf, Bool.or_eq_true, beq_iff_eq] at h
  rcases h with h | h <;>
  · obtain ⟨r, e⟩ := List.getLast?_eq_some_iff.1 h
    exact ⟨r, _, e, by simp⟩

private def segFitsOf (s : Seg) : Bool :=
  startsOf s.text && endsOf s.text && match solRun .code s.text with
    | some (ts, .code) => decide (takePart 0 ts = some (ts, [])) && decide (declared ts = match s with
      | .fn ty name _ => some (ty, name)
      | .other _ => none)
    | _ => false

private theorem segFitsOf_fits {s : Seg} (h : segFitsOf s = true) : s.Fits anyFile := by
  simp only [segFitsOf, Bool.and_eq_true] at h
  obtain ⟨⟨h1, h2⟩, h3⟩ := h
  split at h3
  · rename_i ts hts
    simp only [Bool.and_eq_true, decide_eq_true_eq] at h3
    exact ⟨startsOf_starts h1, endsOf_ends h2, ts, hts, h3.1, trivial, h3.2⟩
  · cases h3

private def emptyOf (s : Str) : Bool := decide (solRun .code s = some ([], .code))

private theorem emptyOf_empty {s : Str} (h : emptyOf s = true) : SolReads s [] := by
  unfold emptyOf at h
  simpa [SolReads] using h

def fitsOf (L : Layout) : Bool :=
  (L.text.all fun c => !isSolEnd c || c == '\n' || c == '\r') &&
  (match solRun .code L.before with
    | some (ts, .code) => contractWords.all fun k => !decide (.word k ∈ ts)
    | _ => false) &&
  (startsOf L.header && match solRun .code (L.header ++ ['{']) with
    | some (.word k :: ts, .code) => decide (k ∈ contractWords) && decide (ts = ts.dropLast ++ [.sym '{']) && !decide (.sym '{' ∈ ts.dropLast) &&
        decide (headerName (.word k :: ts.dropLast) = L.name)
    | _ => false) &&
  emptyOf L.lead && (L.segs.all fun p => segFitsOf p.1 && emptyOf p.2) && (solTokens L.rest).isSome

theorem fitsOf_fits {L : Layout} (h : fitsOf L = true) : L.Fits anyFile := by
  simp only [fitsOf, Bool.and_eq_true] at h
  obtain ⟨⟨⟨⟨⟨h1, h2⟩, h3, h4⟩, h5⟩, h6⟩, h7⟩ := h
  refine ⟨?_, ?_, ?_, emptyOf_empty h5, ?_, ?_⟩
  · intro c hc he
    have := List.all_eq_true.1 h1 c hc
    simpa [he] using this
  · split at h2
    · rename_i ts hts
      refine ⟨ts, hts, fun k hk => ?_, trivial⟩
      simpa using List.all_eq_true.1 h2 k hk
    · cases h2
  · split at h4
    · rename_i k ts hts
      simp only [Bool.and_eq_true, decide_eq_true_eq, Bool.not_eq_true', decide_eq_false_iff_not] at h4
      obtain ⟨⟨⟨a, b⟩, c⟩, d⟩ := h4
      refine ⟨k, ts.dropLast, a, startsOf_starts h3, ?_, c, d, trivial⟩
      rw [List.cons_append, ← b]
      exact hts
    · cases h4
  · intro p hp
    have := List.all_eq_true.1 h6 p hp
    rw [Bool.and_eq_true] at this
    exact ⟨segFitsOf_fits this.1, emptyOf_empty this.2⟩
  · obtain ⟨ts, hts⟩ := Option.isSome_iff_exists.1 h7
    exact ⟨ts, hts, trivial⟩

/-- A file with a comment, a contract with a state variable and the second of three tests, in which there are numbers and quoted braces, and
another contract. -/
private def fileOwner (name : Str) : Layout := ⟨c!"// contract x {\npragma solidity 0.8.0;\n", some name, c!"contract " ++ name ++ c!" is Test ", c!"\n",
  [(.other c!"uint256 public owner = 1.5e18;", c!" // }\n"), (fnSeg c!"test_B" c!"if (a > 0x1F) { b('it\\'s }', \"\\\"{\"); }", c!"\n")], c!"\ncontract Other {}"⟩

private theorem owner_fits : (fileOwner c!"U").Fits anyFile := fitsOf_fits (by decide +kernel)

set_option maxRecDepth 16000 in
private theorem abc_name : sanitize (treeOf treeABC).identifier = c!"T" := by cbv

set_option maxRecDepth 16000 in
private theorem abc_readable : (treeOf treeABC).children.all readableOf = true := by cbv

set_option maxRecDepth 16000 in
private theorem abc_distinct : distinctOf (treeOf treeABC).children = true := by cbv

set_option maxRecDepth 16000 in
private theorem abc_order : inOrderOf (treeOf treeABC).children (fileOwner c!"U") = true := by cbv

set_option maxRecDepth 16000 in
private theorem owner_check : (checkCtx (caseOf treeABC (fileOwner c!"U") false)).isOk = true := by cbv

set_option maxRecDepth 16000 in
private theorem abc_ascii : (treeOf treeABC).children.all (fun f => asciiOf (emitFunction f)) = true := by cbv

/-- The second of three tests missing, the others swapped. -/
private def fileSwap : Layout := ⟨[], some c!"T", c!"contract T ", c!"\n",
  [(fnSeg c!"test_C" c!"", c!"\n"), (fnSeg c!"test_A" c!"", c!"\n")], c!"\n"⟩

private def separateAll (marks : Str) (fns : List HFn) (L : Layout) : Bool :=
  match fillingOf false fns L fns.length with
  | none => true
  | some L' => separateOf marks L'

private theorem separateAll_separate {marks : Str} {fns : List HFn} {L : Layout} (h : separateAll marks fns L = true) :
    ∀ L', Filling false fns L fns.length L' → Separate L' := by
  intro L' hf
  unfold separateAll at h
  rw [fillingOf_eq hf] at h
  exact separateOf_separate h

set_option maxRecDepth 16000 in
private theorem swap_separate : separateAll c!"ABC" (treeOf treeABC).children fileSwap = true := by cbv

set_option maxRecDepth 16000 in
private theorem swap_only : onlyTreeOf (treeOf treeABC).children fileSwap = true := by cbv

set_option maxRecDepth 16000 in
private theorem swap_triple : noTripleOf (treeOf treeABC).children fileSwap = true := by cbv

set_option maxRecDepth 16000 in
private theorem abc_contract : (contractOf treeABC).isSome = true := by cbv

private theorem abc_translate : translate id .default treeABC = .ok ⟨[⟨(treeOf treeABC).identifier, (treeOf treeABC).children⟩]⟩ := by
  obtain ⟨c, hc⟩ := Option.isSome_iff_exists.1 abc_contract
  rw [contractOf_eq hc]; simp [treeOf, hc]

/-- A condition with a nested one. -/
private def treeNested : Str := c!"T\n└── when a\n    ├── it x\n    └── when b\n        └── it y"

/-- An empty contract. -/
private def fileEmpty : Layout := ⟨[], some c!"T", c!"contract T ", c!"\n", [], c!"\n"⟩

set_option maxRecDepth 16000 in
private theorem nested_name : sanitize (treeOf treeNested).identifier = c!"T" := by cbv

set_option maxRecDepth 16000 in
private theorem nested_readable : (treeOf treeNested).children.all readableOf = true := by cbv

set_option maxRecDepth 16000 in
private theorem nested_distinct : distinctOf (treeOf treeNested).children = true := by cbv

set_option maxRecDepth 16000 in
private theorem nested_order : inOrderOf (treeOf treeNested).children fileEmpty = true := by cbv

set_option maxRecDepth 16000 in
private theorem nested_check (skip : Bool) : (checkCtx (caseOf treeNested fileEmpty skip)).isOk = true := by
  cases skip <;> cbv

set_option maxRecDepth 16000 in
private theorem nested_kinds : (treeOf treeNested).children.map HFn.ty = [.modifier, .function, .function] := by cbv

attribute [local irreducible] treeOf

private theorem mark_legible : Legible id .default markTree := by
  intro n fns h
  rw [mark_translate] at h
  cases h
  rw [mark_name]
  have := List.all_eq_true.1 mark_readable
  exact ⟨identOf_ident (by decide), by decide +kernel, fun f hf => (readableOf_legible (this f hf)).1, fun f hf => (readableOf_legible (this f hf)).2.1⟩

/-- C90: `scaffold -w` on the tree, then `check`, with a parser that reads valid files correctly and a formatter that adds a new line. -/
example : ∃ P, Reader P anyFile ∧ (checkRun ⟨newline, P, fun c => some c.src, id⟩ ⟨[tpath c!"a.tree"], false, false, false⟩
    (scaffoldRun ⟨newline, P, fun c => some c.src, id⟩ ⟨[tpath c!"a.tree"], true, false, c!"0.8.0", false, false⟩ oneTree).fs).exit = .code 0 := by
  haveI := lawful_ascii
  obtain ⟨P, hP⟩ := C90_parser_exists anyFile
  have hcfg : (⟨[tpath c!"a.tree"], true, false, c!"0.8.0", false, false⟩ : ScaffoldArgs).config = Config.default := rfl
  have own : OwnFiles [tpath c!"a.tree"] := List.pairwise_singleton _ _
  refine ⟨P, hP, C90_scaffold_then_check (env := ⟨newline, P, fun c => some c.src, id⟩) (fun l => List.Perm.refl _) anyFile_generated hP newline_keeps
    (a := ⟨[tpath c!"a.tree"], true, false, c!"0.8.0", false, false⟩) ?_ trivial ?_ rfl own ?_ ?_ (fun _ h => h) rfl (fun h => h)⟩
  · unfold UsualVersion; decide
  · intro f hf hs
    rw [List.mem_singleton.1 hf] at hs
    revert hs
    decide +kernel
  · intro f hf
    rw [List.mem_singleton.1 hf, hcfg]
    have hsrc := C33_source (order := id) (cfg := .default) (text := markTree) (by decide) (by decide) mark_translate
    refine ⟨markTree, _, by decide +kernel, ⟨_, _, hsrc, rfl, .inl rfl⟩, mark_legible, ?_⟩
    intro n fns h
    rw [show (⟨newline, P, fun c => some c.src, id⟩ : Env).order = id from rfl, mark_translate] at h
    cases h
    exact of_decide_eq_true mark_distinct
  · intro f hf p hp
    rw [List.mem_singleton.1 hf] at hp
    have e : (tpath c!"a.tree").withSolExt = tpath c!"a.t.sol" := by decide +kernel
    rw [(solOf_iff _ _).1 hp, e]
    exact ⟨rfl, Or.inr (by decide +kernel)⟩

/-- C90: what a parser that reads valid files correctly finds in the file written for the tree. -/
example : ∃ P, Reader P anyFile ∧ ∀ out, Yields ⟨newline, P, fun c => some c.src, id⟩ .default markTree out →
    ∃ L : Layout, L.text = out ∧ ReadsAs P L ∧ L.name = some c!"A" ∧ Written (written .default (treeOf markTree).children) L.parts := by
  haveI := lawful_ascii
  obtain ⟨P, hP⟩ := C90_parser_exists anyFile
  refine ⟨P, hP, fun out hy => ?_⟩
  obtain ⟨L, h1, _, h2, h3, h4⟩ := C90_reads_back (env := ⟨newline, P, fun c => some c.src, id⟩) anyFile_generated hP newline_keeps
    (by unfold UsualVersion; decide) trivial mark_legible hy mark_translate
  exact ⟨L, h1, h2, by rw [h3, mark_name], h4⟩

/-- C90, one layout: a layout of the same text is the same. -/
example {L : Layout} (h : L.Fits anyFile) (ht : (fileOwner c!"U").text = L.text) : L.name = some c!"U" ∧ L.segs.length = 2 := by
  rw [← C90_one_layout owner_fits h ht]
  exact ⟨rfl, rfl⟩

/-! ## C91 -/

private theorem owner_renamed : (fileOwner c!"T").Fits anyFile :=
  C91_rename (pre := []) (old := c!"U") (new := c!"T") (post := c!" is Test ") (tp := []) owner_fits rfl rfl rfl (.inl rfl)
    (identOf_ident (by decide)) (identOf_ident (by decide)) (by decide +kernel) (fun _ _ => trivial)

private theorem abc_fns : ∀ f ∈ (treeOf treeABC).children, ReadableFn f :=
  fun f hf => (readableOf_legible (List.all_eq_true.1 abc_readable f hf)).2.2

/-- C91: the files on the way, with the first test inserted. -/
example : ((fileOwner c!"T").reordered [fnSeg c!"test_B" c!"if (a > 0x1F) { b('it\\'s }', \"\\\"{\"); }"]).Fits anyFile ∧
    ∀ k L', Filling false (treeOf treeABC).children (fileOwner c!"T") k L' → L'.Fits anyFile :=
  ⟨(C91_stays_valid anyFile_generated (skip := false) abc_fns owner_renamed).2 _ (by simp [fileOwner]),
    (C91_stays_valid anyFile_generated (skip := false) abc_fns owner_renamed).1⟩

/-- C91: the two missing tests are added and the contract is renamed. -/
example : ∃ P, Reader P anyFile ∧ ∃ L' u vs, checkCtx (caseOf treeABC (fileOwner c!"U") false) = .ok vs ∧
    fixContext P (caseOf treeABC (fileOwner c!"U") false) = .ok ({ caseOf treeABC (fileOwner c!"U") false with src := L'.text, pt := u }, vs.length) ∧
    L'.Fits anyFile ∧ Completed false (treeOf treeABC).children (fileOwner c!"T") L' ∧
    checkCtx { caseOf treeABC (fileOwner c!"U") false with src := L'.text, pt := u } = .ok [] := by
  obtain ⟨P, hP, hPt⟩ := reader_exists anyFile
  obtain ⟨vs, hv⟩ : ∃ vs, checkCtx (caseOf treeABC (fileOwner c!"U") false) = .ok vs := by
    have := owner_check
    cases h : checkCtx (caseOf treeABC (fileOwner c!"U") false) with
    | ok vs => exact ⟨vs, rfl⟩
    | err e => rw [h] at this; cases this
    | panic => rw [h] at this; cases this
  obtain ⟨L', u, h1, h2, _, h4, h5⟩ := C91_fix_missing anyFile_generated hP (n := (treeOf treeABC).identifier)
    (ctx := caseOf treeABC (fileOwner c!"U") false) (caseOf_hir _ _ _) abc_fns owner_fits owner_renamed (caseOf_src _ _ _)
    (hPt _ owner_fits) (by
      rw [abc_name]
      exact Renamed.other (pre := []) (post := c!" is Test ") rfl (by decide) rfl
        (once_of_char (d := 'U') (by decide) (by decide +kernel)))
    (by decide) (by intro i f g _ _ h; cases h) (distinctOf_distinct abc_distinct) (inOrderOf_inOrder abc_order) hv
  exact ⟨P, hP, L', u, vs, hv, h1, h2, h4, h5⟩

/-- C91: the tests are completed and sorted. -/
example : ∃ P, Reader P anyFile ∧ ∃ (L' L'' : Layout) (u : SolUnit) (vs : List Violation), checkCtx (caseOf treeABC fileSwap false) = .ok vs ∧
    fixContext P (caseOf treeABC fileSwap false) = .ok ({ caseOf treeABC fileSwap false with src := L''.text, pt := u }, vs.length) ∧
    Completed false (treeOf treeABC).children fileSwap L' ∧ Each Seg.Is (treeOf treeABC).children (L''.segs.map Prod.fst) ∧
    checkCtx { caseOf treeABC fileSwap false with src := L''.text, pt := u } = .ok [] := by
  obtain ⟨P, hP, hPt⟩ := reader_exists anyFile
  have hfit : fileSwap.Fits anyFile := fitsOf_fits (by decide +kernel)
  obtain ⟨L', L'', u, vs, h1, h2, _, _, h3, _, _, h4, h5⟩ := C91_fix_order anyFile_generated hP (n := (treeOf treeABC).identifier)
    (ctx := caseOf treeABC fileSwap false) (caseOf_hir _ _ _) abc_fns hfit hfit (caseOf_src _ _ _) (hPt _ hfit)
    (.same (by rw [abc_name]; intro m hm; exact (Option.some.inj hm).symm)) (by decide) rfl (distinctOf_distinct abc_distinct)
    (onlyTreeOf_only swap_only) (noTripleOf_triple swap_triple) (asciiOf_ascii (by decide +kernel)) (asciiOf_ascii (by decide +kernel))
    (fun f hf => asciiOf_ascii (List.all_eq_true.1 abc_ascii f hf)) (separateAll_separate swap_separate)
  exact ⟨P, hP, L', L'', u, vs, h1, h2, h3, h4, h5⟩

/-! ## C92, C93 -/

private theorem ok_exists {ε α : Type} {r : Res ε α} (h : r.isOk = true) : ∃ a, r = .ok a := by
  cases r with
  | ok a => exact ⟨a, rfl⟩
  | err e => cases h
  | panic => cases h

/-- C93: the first modifier and its test are missing; fixing crashes with `-m` and does not without. -/
example : ∃ P, Reader P anyFile ∧ fixContext P (caseOf treeNested fileEmpty true) = .panic ∧
    fixContext P (caseOf treeNested fileEmpty false) ≠ .panic := by
  obtain ⟨P, hP, hPt⟩ := reader_exists anyFile
  have hfit : fileEmpty.Fits anyFile := fitsOf_fits (by decide +kernel)
  have key := fun skip : Bool =>
    let ⟨_, hv⟩ := ok_exists (nested_check skip)
    C93_crash_iff anyFile_generated hP (n := (treeOf treeNested).identifier) (ctx := caseOf treeNested fileEmpty skip)
      (caseOf_hir _ _ _) (fun f hf => (readableOf_legible (List.all_eq_true.1 nested_readable f hf)).2.2) hfit hfit (caseOf_src _ _ _)
      (hPt _ hfit) (.same (by rw [nested_name]; intro m hm; exact (Option.some.inj hm).symm)) (by decide)
      (distinctOf_distinct nested_distinct) (inOrderOf_inOrder nested_order) hv
  refine ⟨P, hP, (key true).2 ⟨rfl, ?_⟩, fun h => ?_⟩
  · have hno : ∀ f, ¬ Present fileEmpty.parts f := by
      rintro f ⟨p, hp, _⟩
      cases hp
    have hk := nested_kinds
    match hc : (treeOf treeNested).children with
    | [] => rw [hc] at hk; cases hk
    | [_] => rw [hc] at hk; simp at hk
    | f :: g :: _ =>
      rw [hc] at hk
      simp only [List.map_cons, List.cons.injEq] at hk
      exact ⟨0, f, g, rfl, rfl, hk.1, hk.2.1, hno f, hno g⟩
  · have := ((key false).1 h).1
    cases this

/-- The tree and the Solidity file. -/
private def twoFiles : Fs := ⟨fun p => if p = tpath c!"a.tree" then .text treeABC else if p = tpath c!"a.t.sol" then .text (fileOwner c!"U").text
  else .absent, fun _ => true⟩

/-- C92: `check --fix`, then `check`. -/
example : ∃ P, Reader P anyFile ∧ (checkRun ⟨newline, P, fun c => some c.src, id⟩ ⟨[tpath c!"a.tree"], false, false, false⟩
    (checkRun ⟨newline, P, fun c => some c.src, id⟩ ⟨[tpath c!"a.tree"], true, false, false⟩ twoFiles).fs).exit = .code 0 := by
  haveI := lawful_ascii
  obtain ⟨P, hP, _⟩ := reader_exists anyFile
  have own : OwnFiles [tpath c!"a.tree"] := List.pairwise_singleton _ _
  refine ⟨P, hP, (C92_fix_then_check (env := ⟨newline, P, fun c => some c.src, id⟩) (a := ⟨[tpath c!"a.tree"], true, false, false⟩)
    anyFile_generated hP (fun ctx L h1 h2 _ => ⟨L, by rw [← h1], h2, rfl, rfl⟩) ?_ rfl rfl own ?_ (fun _ _ _ _ => rfl)).2⟩
  · intro f hf hs
    rw [List.mem_singleton.1 hf] at hs
    revert hs
    decide +kernel
  · intro t ht
    rw [List.mem_singleton.1 ht]
    refine ⟨treeABC, _, _, tpath c!"a.t.sol", fileOwner c!"U", fileOwner c!"T", by decide +kernel, abc_translate, abc_fns,
      distinctOf_distinct abc_distinct, (solOf_iff _ _).2 (by decide +kernel), by decide +kernel, owner_fits, owner_renamed,
      asciiOf_ascii (by decide +kernel), ?_, by decide, .order (inOrderOf_inOrder abc_order) (fun h => by cases h.1)⟩
    rw [abc_name]
    exact Renamed.other (pre := []) (post := c!" is Test ") rfl (by decide) rfl (once_of_char (d := 'U') (by decide) (by decide +kernel))

/-! ## C95 -/

set_option maxRecDepth 16000 in
private theorem prq_readable : (treeOf treePRQ).children.all readableOf = true := by cbv

/-- C95: the three functions are added to the file. -/
example : ∃ P, Reader P anyFile ∧ ∃ (L' : Layout) (u : SolUnit) (k : Nat),
    fixContext P { caseOf treePQ filePQ false with hir := ⟨[treeOf treePRQ]⟩ } =
      .ok ({ caseOf treePQ filePQ false with hir := ⟨[treeOf treePRQ]⟩, src := L'.text, pt := u }, k) ∧ L'.Fits anyFile ∧
    filePQ.text.Sublist L'.text ∧ checkCtx { caseOf treePQ filePQ false with hir := ⟨[treeOf treePRQ]⟩, src := L'.text, pt := u } = .ok [] ∧
    checkCtx { caseOf treePQ filePQ false with src := L'.text, pt := u } = .ok [] := by
  haveI := lawful_ascii
  obtain ⟨P, hP, hPt⟩ := reader_exists anyFile
  have hfit : filePQ.Fits anyFile := fitsOf_fits (by decide +kernel)
  obtain ⟨L', u, k, h1, h2, _, _, _, _, h3, _, _, _, h4, h5⟩ := C95_fix anyFile_generated hP pq_parse prq_parse pq_extended .default
    (ctx := caseOf treePQ filePQ false) pq_translate prq_translate (pq_check _) (caseOf_hir _ _ _) prq_hir (distinctOf_distinct prq_distinct)
    (fun f hf => (readableOf_legible (List.all_eq_true.1 prq_readable f hf)).2.2) hfit (caseOf_src _ _ _) (hPt _ hfit) (by decide)
    (absentOf_absent prq_absent) (fun h => by cases h.1)
  exact ⟨P, hP, L', u, k, h1, h2, h3, h4, h5⟩

/-! ## C99 -/

/-- A file with two of the tests in the wrong order; the text of a test that is moved occurs in others, but not its declaration. -/
private def fileTwice : Layout := ⟨c!"// test_A\n", some c!"T", c!"contract T ", c!"\n",
  [(fnSeg c!"test_B" c!" /* test_A() { } */ ", c!" // test_B\n"), (fnSeg c!"test_A" c!" test_B(); ", c!"\n")], c!"\n"⟩

set_option maxRecDepth 16000 in
private theorem twice_declared : declaredOf (treeOf treeABC).children fileTwice = true := by cbv

set_option maxRecDepth 16000 in
private theorem twice_only : onlyTreeOf (treeOf treeABC).children fileTwice = true := by cbv

set_option maxRecDepth 16000 in
private theorem twice_triple : noTripleOf (treeOf treeABC).children fileTwice = true := by cbv

/-- C99: the third test is added and the others are sorted. -/
example : ∃ P, Reader P anyFile ∧ ∃ (L' : Layout) (u : SolUnit) (vs : List Violation), checkCtx (caseOf treeABC fileTwice false) = .ok vs ∧
    fixContext P (caseOf treeABC fileTwice false) = .ok ({ caseOf treeABC fileTwice false with src := L'.text, pt := u }, vs.length) ∧
    Each Seg.Is (treeOf treeABC).children (L'.segs.map Prod.fst) ∧
    checkCtx { caseOf treeABC fileTwice false with src := L'.text, pt := u } = .ok [] := by
  obtain ⟨P, hP, hPt⟩ := reader_exists anyFile
  have hfit : fileTwice.Fits anyFile := fitsOf_fits (by decide +kernel)
  obtain ⟨L', u, vs, h1, h2, _, _, _, h4, h5⟩ := C99_sorts anyFile_generated hP (n := (treeOf treeABC).identifier)
    (ctx := caseOf treeABC fileTwice false) (caseOf_hir _ _ _) abc_fns hfit hfit (caseOf_src _ _ _) (hPt _ hfit)
    (.same (by rw [abc_name]; intro m hm; exact (Option.some.inj hm).symm)) (by decide) rfl (distinctOf_distinct abc_distinct)
    (onlyTreeOf_only twice_only) (noTripleOf_triple twice_triple) (asciiOf_ascii (by decide +kernel)) (asciiOf_ascii (by decide +kernel))
    (fun f hf => asciiOf_ascii (List.all_eq_true.1 abc_ascii f hf)) (declaredOf_declared twice_declared)
  exact ⟨P, hP, L', u, vs, h1, h2, h4, h5⟩

/-- C99: the file can be repaired. -/
example : Repairable false (treeOf treeABC).children fileTwice fileTwice :=
  C99_repairable (n := c!"T") abc_fns (distinctOf_distinct abc_distinct) (.same fun _ hm => (Option.some.inj hm).symm) (onlyTreeOf_only twice_only)
    (noTripleOf_triple twice_triple) (asciiOf_ascii (by decide +kernel)) (fun f hf => asciiOf_ascii (List.all_eq_true.1 abc_ascii f hf))
    (declaredOf_declared twice_declared)

/-! ## C100, C101 -/

private def misplacedOf (fns : List HFn) (L : Layout) (i : Nat) : Bool :=
  (List.range fns.length).any fun j => match posOf fns L i, posOf fns L j with
    | some a, some b => decide (i < j ∧ b < a)
    | _, _ => false

private theorem misplacedOf_iff (fns : List HFn) (L : Layout) (i : Nat) : misplacedOf fns L i = true ↔ Misplaced fns L.parts i := by
  simp only [misplacedOf, List.any_eq_true, List.mem_range]
  constructor
  · rintro ⟨j, _, h⟩
    split at h
    · rename_i a b ha hb
      rw [decide_eq_true_eq] at h
      obtain ⟨f, hf, ha⟩ := posOf_at ha
      obtain ⟨g, hg, hb⟩ := posOf_at hb
      exact ⟨f, a, j, g, b, hf, ha, h.1, hg, hb, h.2⟩
    · cases h
  · rintro ⟨f, a, j, g, b, hf, ha, hij, hg, hb, hlt⟩
    refine ⟨j, (List.getElem?_eq_some_iff.1 hg).1, ?_⟩
    rw [posOf_eq hf ha, posOf_eq hg hb]
    simp [hij, hlt]

def blockedOf (fns : List HFn) (L : Layout) : Bool :=
  (List.range fns.length).any fun i => (List.range fns.length).any fun h => decide (i < h) && misplacedOf fns L h && !misplacedOf fns L i &&
    match posOf fns L i with
    | some a => (List.range a).any fun z => (L.keys[z]?).any fun x => fns.all fun f => !decide (x = some (fnKey f))
    | none => false

theorem blockedOf_iff (fns : List HFn) (L : Layout) : blockedOf fns L = true ↔ Blocked fns L.parts := by
  rw [blocked_key]
  simp only [blockedOf, List.any_eq_true, List.mem_range, Bool.and_eq_true, decide_eq_true_eq, misplacedOf_iff, Bool.not_eq_true',
    ← Bool.not_eq_true]
  constructor
  · rintro ⟨i, _, h, _, ⟨⟨h1, h2⟩, h3⟩, h4⟩
    split at h4
    · rename_i a ha
      obtain ⟨f, hf, ha⟩ := posOf_at ha
      simp only [List.any_eq_true, List.mem_range, Option.any_eq_true, List.all_eq_true, Bool.not_eq_true', decide_eq_false_iff_not] at h4
      obtain ⟨z, hz, x, hx, hn⟩ := h4
      exact ⟨i, h, f, a, z, x, h1, h2, h3, hf, ha, hz, hx, hn⟩
    · cases h4
  · rintro ⟨i, h, f, a, z, x, h1, h2, h3, hf, ha, hz, hx, hn⟩
    obtain ⟨g, _, _, _, _, hg, _⟩ := id h2
    refine ⟨i, (List.getElem?_eq_some_iff.1 hf).1, h, (List.getElem?_eq_some_iff.1 hg).1, ⟨⟨h1, h2⟩, h3⟩, ?_⟩
    rw [posOf_eq hf ha]
    simp only [List.any_eq_true, List.mem_range, Option.any_eq_true, List.all_eq_true, Bool.not_eq_true', decide_eq_false_iff_not]
    exact ⟨z, hz, x, hx, hn⟩

def mixedOf (fns : List HFn) (L : Layout) : Bool :=
  (L.segs.map Prod.fst).all fun s => match s with
    | .fn _ none _ => false
    | .fn ty (some m) t => fns.all fun f => !decide (f.identifier = m) || fns.any fun g => decide ((Seg.fn ty (some m) t).Is g)
    | .other _ => true

theorem mixedOf_mixed {fns : List HFn} {L : Layout} (h : mixedOf fns L = true) : Mixed fns L := by
  simp only [mixedOf, List.all_eq_true] at h
  constructor
  · intro ty t hm
    exact absurd (h _ hm) (by simp)
  · intro ty m t hm f hf e
    have := h _ hm
    simp only [List.all_eq_true, Bool.or_eq_true, Bool.not_eq_true', decide_eq_false_iff_not, List.any_eq_true, decide_eq_true_eq] at this
    exact (this f hf).resolve_left (fun h => h e)

/-- A variable, a test, `setUp` and the test that should come first; there are comments between them. -/
private def fileMix : Layout := ⟨c!"// tests\n", some c!"T", c!"contract T is Base ", c!"\n  // state\n",
  [(.other c!"uint256 x = 1;", c!" // one\n"), (fnSeg c!"test_B" c!" x = 2; ", c!"\n  /* before each */\n"), (fnSeg c!"setUp" c!" x = 0; ", c!"\n"),
    (fnSeg c!"test_A" c!" assert(x == 0); ", c!" // end\n")], c!"\n"⟩

set_option maxRecDepth 16000 in
private theorem mix_declared : declaredOf (treeOf treeABC).children fileMix = true := by cbv

set_option maxRecDepth 16000 in
private theorem mix_mixed : mixedOf (treeOf treeABC).children fileMix = true := by cbv

set_option maxRecDepth 16000 in
private theorem mix_triple : noTripleOf (treeOf treeABC).children fileMix = true := by cbv

set_option maxRecDepth 16000 in
private theorem mix_blocked : blockedOf (treeOf treeABC).children fileMix = false := by cbv

set_option maxRecDepth 16000 in
private theorem mix_foreign : (fileMix.segs.map Prod.fst).filter (fun s => decide (Foreign (treeOf treeABC).children s)) =
    [.other c!"uint256 x = 1;", fnSeg c!"setUp" c!" x = 0; "] := by cbv

/-- C100: the variable and `setUp` are kept in order, and so is a comment. -/
example : ∃ P, Reader P anyFile ∧ ∃ (L' : Layout) (u : SolUnit) (vs : List Violation), checkCtx (caseOf treeABC fileMix false) = .ok vs ∧
    fixContext P (caseOf treeABC fileMix false) = .ok ({ caseOf treeABC fileMix false with src := L'.text, pt := u }, vs.length) ∧
    (L'.segs.map Prod.fst).filter (fun s => decide (Foreign (treeOf treeABC).children s)) = [.other c!"uint256 x = 1;", fnSeg c!"setUp" c!" x = 0; "] ∧
    fnSeg c!"test_A" c!" assert(x == 0); " ∈ L'.segs.map Prod.fst ∧ ∃ g ∈ L'.gaps, c!"\n  /* before each */\n" <:+: g := by
  obtain ⟨P, hP, hPt⟩ := reader_exists anyFile
  have hfit : fileMix.Fits anyFile := fitsOf_fits (by decide +kernel)
  obtain ⟨L', u, vs, h1, h2, _, _, _, h3, h4, h5⟩ := C100_kept anyFile_generated hP (n := (treeOf treeABC).identifier)
    (ctx := caseOf treeABC fileMix false) (caseOf_hir _ _ _) abc_fns hfit hfit (caseOf_src _ _ _) (hPt _ hfit)
    (.same (by rw [abc_name]; intro m hm; exact (Option.some.inj hm).symm)) (by decide) rfl (distinctOf_distinct abc_distinct)
    (mixedOf_mixed mix_mixed) (asciiOf_ascii (by decide +kernel)) (asciiOf_ascii (by decide +kernel))
    (fun f hf => asciiOf_ascii (List.all_eq_true.1 abc_ascii f hf)) (declaredOf_declared mix_declared)
  exact ⟨P, hP, L', u, vs, h1, h2, h4.trans mix_foreign, (h3 _).2 (.inl (by decide +kernel)), h5 _ (by decide +kernel)⟩

/-- C101: nothing is blocked, and nothing is reported afterwards. -/
example : ∃ P, Reader P anyFile ∧ ∃ (L' : Layout) (u : SolUnit) (vs : List Violation), checkCtx (caseOf treeABC fileMix false) = .ok vs ∧
    fixContext P (caseOf treeABC fileMix false) = .ok ({ caseOf treeABC fileMix false with src := L'.text, pt := u }, vs.length) ∧
    checkCtx { caseOf treeABC fileMix false with src := L'.text, pt := u } = .ok [] := by
  obtain ⟨P, hP, hPt⟩ := reader_exists anyFile
  have hfit : fileMix.Fits anyFile := fitsOf_fits (by decide +kernel)
  obtain ⟨L', u, vs, h1, h2, _, _, _, h3⟩ := C101_exact anyFile_generated hP (n := (treeOf treeABC).identifier)
    (ctx := caseOf treeABC fileMix false) (caseOf_hir _ _ _) abc_fns hfit hfit (caseOf_src _ _ _) (hPt _ hfit)
    (.same (by rw [abc_name]; intro m hm; exact (Option.some.inj hm).symm)) (by decide) rfl (distinctOf_distinct abc_distinct)
    (mixedOf_mixed mix_mixed) (noTripleOf_triple mix_triple) (asciiOf_ascii (by decide +kernel)) (asciiOf_ascii (by decide +kernel))
    (fun f hf => asciiOf_ascii (List.all_eq_true.1 abc_ascii f hf)) (declaredOf_declared mix_declared)
  refine ⟨P, hP, L', u, vs, h1, h2, h3.2 fun hb => ?_⟩
  rw [← blockedOf_iff, mix_blocked] at hb
  cases hb

set_option maxRecDepth 16000 in
private theorem xacb_declared : declaredOf (treeOf treeABC).children fileXACB = true := by cbv

set_option maxRecDepth 16000 in
private theorem xacb_mixed : mixedOf (treeOf treeABC).children fileXACB = true := by cbv

set_option maxRecDepth 16000 in
private theorem xacb_triple : noTripleOf (treeOf treeABC).children fileXACB = true := by cbv

set_option maxRecDepth 16000 in
private theorem xacb_blocked : blockedOf (treeOf treeABC).children fileXACB = true := by cbv

/-- C101: `setUp` is in front of a test that stays while a later one is moved, so something is reported afterwards. -/
example : ∃ P, Reader P anyFile ∧ ∃ (L' : Layout) (u : SolUnit) (vs : List Violation), checkCtx (caseOf treeABC fileXACB false) = .ok vs ∧
    fixContext P (caseOf treeABC fileXACB false) = .ok ({ caseOf treeABC fileXACB false with src := L'.text, pt := u }, vs.length) ∧
    checkCtx { caseOf treeABC fileXACB false with src := L'.text, pt := u } ≠ .ok [] := by
  obtain ⟨P, hP, hPt⟩ := reader_exists anyFile
  have hfit : fileXACB.Fits anyFile := fitsOf_fits (by decide +kernel)
  obtain ⟨L', u, vs, h1, h2, _, _, _, h3⟩ := C101_exact anyFile_generated hP (n := (treeOf treeABC).identifier)
    (ctx := caseOf treeABC fileXACB false) (caseOf_hir _ _ _) abc_fns hfit hfit (caseOf_src _ _ _) (hPt _ hfit)
    (.same (by rw [abc_name]; intro m hm; exact (Option.some.inj hm).symm)) (by decide) rfl (distinctOf_distinct abc_distinct)
    (mixedOf_mixed xacb_mixed) (noTripleOf_triple xacb_triple) (asciiOf_ascii (by decide +kernel)) (asciiOf_ascii (by decide +kernel))
    (fun f hf => asciiOf_ascii (List.all_eq_true.1 abc_ascii f hf)) (declaredOf_declared xacb_declared)
  exact ⟨P, hP, L', u, vs, h1, h2, fun h => h3.1 h ((blockedOf_iff _ _).1 xacb_blocked)⟩

/-! ## C102 -/

set_option maxRecDepth 16000 in
private theorem pq_readable : (treeOf treePQ).children.all readableOf = true := by cbv

set_option maxRecDepth 16000 in
private theorem pq_name : sanitize (treeOf treePQ).identifier = c!"T" := by cbv

set_option maxRecDepth 16000 in
private theorem pq_distinct : distinctOf (treeOf treePQ).children = true := by cbv

set_option maxRecDepth 16000 in
private theorem pq_order : inOrderOf (treeOf treePQ).children filePQ = true := by cbv

section
attribute [local irreducible] onlyOf

/-- Files are not formatted. -/
private def plainEnv (P : SolParser) : Env := ⟨some, P, fun c => some c.src, id⟩

private theorem oneTree_of {P : SolParser} {text : Str} (hp : parse id text = .ok [onlyOf text]) (ht : translate id .default text = .ok ⟨[treeOf text]⟩)
    (hr : (treeOf text).children.all readableOf = true) (hn : sanitize (treeOf text).identifier = c!"T") (hd : distinctOf (treeOf text).children = true) :
    OneTree (plainEnv P) text (onlyOf text) := by
  refine ⟨hp, ?_, ?_⟩
  · intro n fns h
    have e : treeOf text = ⟨n, fns⟩ := by simpa using Res.ok.inj (ht.symm.trans h)
    rw [e] at hn hr
    rw [hn]
    exact ⟨identOf_ident (by decide), by decide, fun f hf => (readableOf_legible (List.all_eq_true.1 hr f hf)).1,
      fun f hf => (readableOf_legible (List.all_eq_true.1 hr f hf)).2.1⟩
  · intro n fns h
    have e : treeOf text = ⟨n, fns⟩ := by simpa using Res.ok.inj (ht.symm.trans h)
    rw [e] at hd
    exact distinctOf_distinct hd

private def pqFs : Fs := ⟨fun p => if p = tpath c!"a.tree" then .text treePQ else .absent, fun _ => true⟩

/-- C102: the tree is scaffolded, the Solidity file is replaced by one with a variable, branches are added to the tree, and `check` is run: then `check` reports
functions as missing, `check --fix` succeeds and `check` succeeds. -/
example : ∃ P r0 fs, Reader P anyFile ∧ program (plainEnv P) [c!"scaffold", c!"-w", c!"t/a.tree"] pqFs = .ran r0 ∧
    Session (plainEnv P) anyFile c!"t/a.tree" (tpath c!"a.tree") (tpath c!"a.t.sol") r0.fs fs ∧ fs.state (tpath c!"a.tree") = .text treePRQ ∧
    fs.state (tpath c!"a.t.sol") = .text filePQ.text ∧ (∃ r, program (plainEnv P) [c!"check", c!"t/a.tree"] fs = .ran r ∧ r.exit = .code 1) ∧
    ∃ r1, program (plainEnv P) [c!"check", c!"--fix", c!"t/a.tree"] fs = .ran r1 ∧ r1.exit = .code 0 ∧
      ∃ r2, program (plainEnv P) [c!"check", c!"t/a.tree"] r1.fs = .ran r2 ∧ r2.exit = .code 0 := by
  haveI := lawful_ascii
  obtain ⟨P, hP, hPt⟩ := reader_exists anyFile
  have hfit : filePQ.Fits anyFile := fitsOf_fits (by decide +kernel)
  have hT : Tools (plainEnv P) anyFile := ⟨anyFile_generated, trivial, hP, fun L hL => ⟨L, rfl, hL, rfl, rfl, id⟩,
    fun ctx L h1 hL _ => ⟨L, by simp [plainEnv, h1], hL, rfl, rfl, id⟩, fun l => List.Perm.refl _⟩
  have h1 : OneTree (plainEnv P) treePQ (onlyOf treePQ) := oneTree_of pq_parse pq_translate pq_readable pq_name pq_distinct
  have h2 : OneTree (plainEnv P) treePRQ (onlyOf treePRQ) :=
    oneTree_of prq_parse prq_translate prq_readable (by rw [prq_ident]; exact pq_name) prq_distinct
  have hpath : PathOf c!"t/a.tree" (tpath c!"a.tree") := ⟨by decide, by decide, .inr ⟨c!"t", by decide⟩⟩
  have hsol : SolOf (tpath c!"a.tree") (tpath c!"a.t.sol") := (solOf_iff _ _).2 (by decide +kernel)
  have hop : Operand c!"t/a.tree" := .inr (by intro r; simp)
  have hq : tpath c!"a.tree" ≠ tpath c!"a.t.sol" := by decide
  obtain ⟨r0, e0, _, _, hses⟩ := C102_session hT (by decide) hop hpath hsol (by decide +kernel) (fs0 := pqFs) (text := treePQ) (by simp [pqFs]) h1 rfl
    (by simp [pqFs, hq.symm])
  have ht0 : r0.fs.state (tpath c!"a.tree") = .text treePQ := by
    simp only [program, line_write (by decide) hop hpath, Outcome.ran.injEq] at e0
    subst e0
    rw [scaffold_state_same (by intro f hf; cases List.mem_singleton.1 hf; decide +kernel) (by decide +kernel)]
    simp [pqFs]
  have s1 : Step (plainEnv P) anyFile c!"t/a.tree" (tpath c!"a.tree") (tpath c!"a.t.sol") r0.fs (put r0.fs (tpath c!"a.t.sol") filePQ.text) :=
    .edit ht0 (n := (treeOf treePQ).identifier) pq_translate hfit (by decide) (by rw [pq_name]; rfl) (inOrderOf_inOrder pq_order)
  have s2 : Step (plainEnv P) anyFile c!"t/a.tree" (tpath c!"a.tree") (tpath c!"a.t.sol") (put r0.fs (tpath c!"a.t.sol") filePQ.text)
      (put (put r0.fs (tpath c!"a.t.sol") filePQ.text) (tpath c!"a.tree") treePRQ) :=
    .grow (L := filePQ) (text := treePQ) (by simp [put, hq, ht0]) h1 h2 pq_title.symm pq_extended pq_translate (prq_translate.trans (by rw [prq_hir])) (by simp [put]) hfit
      (absentOf_absent prq_absent)
  obtain ⟨text, n, fns, L, g1, g2, g3, g4, ⟨r, c1, c2, c3, _⟩, r1, c4, c5, _, _, r2, c6, c7⟩ := hses _ (.step (.step .start s1) s2)
  have e1 : text = treePRQ := by simpa [put] using g1.symm
  have e2 : L = filePQ := layout_unique g4 hfit (by simpa [put, hq.symm] using g3.symm)
  subst e1 e2
  refine ⟨P, r0, _, hP, e0, .step (.step .start s1) s2, by simp [put], by simp [put, hq.symm], ⟨r, c1, ?_⟩, r1, c4, c5, r2, c6, c7⟩
  rw [if_neg] at c3
  · exact c3
  · intro hall
    have e : treeOf treePRQ = ⟨n, fns⟩ := by simpa using Res.ok.inj (prq_translate.symm.trans g2)
    have hm : (FnTy.function, c!"test_C") ∈ (treeOf treePRQ).children.map nameOf := by rw [prq_names]; simp
    obtain ⟨f, hf, e'⟩ := List.mem_map.1 hm
    refine absentOf_absent prq_absent f hf ?_ (hall f (by rw [e] at hf; exact hf))
    rw [e', pq_names]
    decide

end

/-! ## C103, C104 -/

private def noContract : Str := c!"// nothing here yet\n"

/-- A parser for valid files, and for a file without a contract. -/
private def withEmpty (P : SolParser) : SolParser := fun s => if s = noContract then some [] else P s

private theorem withEmpty_reader {P : SolParser} (hP : Reader P anyFile) : Reader (withEmpty P) anyFile := by
  intro L hL
  have hne : L.text ≠ noContract := by
    intro e
    have h1 : '{' ∈ L.text := by simp [Layout.text, Layout.front]
    rw [e] at h1
    revert h1
    decide
  unfold ReadsAs withEmpty
  rw [if_neg hne]
  exact hP L hL

private theorem abc_legible : Legible id .default treeABC := by
  intro n fns h
  have e : (treeOf treeABC).identifier = n ∧ (treeOf treeABC).children = fns := by simpa using Res.ok.inj (abc_translate.symm.trans h)
  have hn := abc_name
  have hr := abc_readable
  rw [e.1] at hn
  rw [e.2] at hr
  rw [hn]
  exact ⟨identOf_ident (by decide), by decide, fun f hf => (readableOf_legible (List.all_eq_true.1 hr f hf)).1,
    fun f hf => (readableOf_legible (List.all_eq_true.1 hr f hf)).2.1⟩

private def threeTrees : List FPath := [tpath c!"a.tree", tpath c!"b.tree", tpath c!"c.tree"]

/-- Three trees: tests are out of order among other code, tests are missing and the contract has another name, and there is no contract. -/
private def mendFs : Fs := ⟨fun p => if p ∈ threeTrees then .text treeABC else if p = tpath c!"a.t.sol" then .text fileMix.text
  else if p = tpath c!"b.t.sol" then .text (fileOwner c!"U").text else if p = tpath c!"c.t.sol" then .text noContract else .absent, fun _ => true⟩

/-- C104, and C103 behind it: `check --fix` repairs all three, and has nothing to do the second time. -/
example : ∃ P, Reader P anyFile ∧ (checkRun ⟨some, P, fun c => some c.src, id⟩ ⟨threeTrees, true, false, false⟩ mendFs).exit = .code 0 ∧
    (checkRun ⟨some, P, fun c => some c.src, id⟩ ⟨threeTrees, false, false, false⟩
      (checkRun ⟨some, P, fun c => some c.src, id⟩ ⟨threeTrees, true, false, false⟩ mendFs).fs).exit = .code 0 ∧
    (checkRun ⟨some, P, fun c => some c.src, id⟩ ⟨threeTrees, true, false, false⟩
      (checkRun ⟨some, P, fun c => some c.src, id⟩ ⟨threeTrees, true, false, false⟩ mendFs).fs).stdout = [c!"\nsuccess: 0 issues fixed."] := by
  haveI := lawful_ascii
  obtain ⟨P, hP, hPt⟩ := reader_exists anyFile
  have hsol : ∀ {t p q : FPath}, SolOf t p → SolOf q p → t.withSolExt = q.withSolExt := fun h1 h2 => ((solOf_iff _ _).1 h1).symm.trans ((solOf_iff _ _).1 h2)
  have hmix : fileMix.Fits anyFile := fitsOf_fits (by decide +kernel)
  have hR := withEmpty_reader hP
  have key := C104_mend (env := ⟨some, withEmpty P, fun c => some c.src, id⟩) (a := ⟨threeTrees, true, false, false⟩) (fs := mendFs)
    (fun l => List.Perm.refl _) anyFile_generated hR (fun ctx L h1 h2 _ => ⟨L, by rw [← h1], h2, rfl, rfl⟩) (fun _ _ _ _ _ => rfl) trivial ?_ rfl rfl ?_ ?_
    (fun _ _ _ _ => rfl)
  · exact ⟨withEmpty P, hR, key.1, key.2.1, by rw [key.2.2]⟩
  · intro f hf
    simp only [threeTrees, List.mem_cons, List.not_mem_nil, or_false] at hf
    rcases hf with rfl | rfl | rfl <;> decide +kernel
  · refine .cons ?_ (.cons ?_ (.cons ?_ .nil))
    · intro q hq p h1 h2
      have := hsol h1 h2
      simp only [List.mem_cons, List.not_mem_nil, or_false] at hq
      rcases hq with rfl | rfl <;> exact absurd this (by decide +kernel)
    · intro q hq p h1 h2
      have := hsol h1 h2
      cases List.mem_singleton.1 hq
      exact absurd this (by decide +kernel)
    · intro q hq; cases hq
  · intro t ht
    simp only [threeTrees, List.mem_cons, List.not_mem_nil, or_false] at ht
    rcases ht with rfl | rfl | rfl
    · obtain ⟨u, hu, _⟩ := hR fileMix hmix
      refine ⟨treeABC, _, _, tpath c!"a.t.sol", fileMix.text, u, by decide +kernel, abc_translate, abc_fns, distinctOf_distinct abc_distinct,
        (solOf_iff _ _).2 (by decide +kernel), by decide +kernel, hu, .mixed rfl hmix hmix (asciiOf_ascii (by decide +kernel)) (.same ?_) (by decide) rfl
        (mixedOf_mixed mix_mixed) (noTripleOf_triple mix_triple) (fun hb => ?_) (asciiOf_ascii (by decide +kernel))
        (fun f hf => asciiOf_ascii (List.all_eq_true.1 abc_ascii f hf)) (declaredOf_declared mix_declared)⟩
      · rw [abc_name]; intro m hm; exact (Option.some.inj hm).symm
      · rw [← blockedOf_iff, mix_blocked] at hb; cases hb
    · obtain ⟨u, hu, _⟩ := hR _ owner_fits
      refine ⟨treeABC, _, _, tpath c!"b.t.sol", (fileOwner c!"U").text, u, by decide +kernel, abc_translate, abc_fns, distinctOf_distinct abc_distinct,
        (solOf_iff _ _).2 (by decide +kernel), by decide +kernel, hu, .order rfl owner_fits owner_renamed (asciiOf_ascii (by decide +kernel)) ?_ (by decide)
        (inOrderOf_inOrder abc_order) (fun h => by cases h.1)⟩
      rw [abc_name]
      exact Renamed.other (pre := []) (post := c!" is Test ") rfl (by decide) rfl (once_of_char (d := 'U') (by decide) (by decide +kernel))
    · have hu : withEmpty P noContract = some [] := if_pos rfl
      refine ⟨treeABC, _, _, tpath c!"c.t.sol", noContract, [], by decide +kernel, abc_translate, abc_fns, distinctOf_distinct abc_distinct,
        (solOf_iff _ _).2 (by decide +kernel), by decide +kernel, hu, .absent abc_legible hu ?_⟩
      intro s hs
      have := (findContract_iff _ _).2 hs
      cases this

/-! ## C106 -/

/-- Three nested conditions. -/
private def treeDeep : Str := c!"T\n└── when a\n    ├── it x\n    └── when b\n        ├── it y\n        └── when c\n            └── it z"

/-- The three tests, the last two exchanged, without the modifiers, and more. -/
private def fileDeep (more : List (Seg × Str)) : Layout := ⟨[], some c!"T", c!"contract T ", c!"\n",
  [(fnSeg c!"test_WhenA" [], c!"\n"), (fnSeg c!"test_WhenC" c!" /* c */ ", c!"\n"), (fnSeg c!"test_WhenB" [], c!"\n")] ++ more, c!"\n"⟩

private def twoVars : List (Seg × Str) := [(.other c!"uint256 x;", c!"\n"), (.other c!"uint256 y;", c!"\n")]

set_option maxRecDepth 16000 in
private theorem deep_name : sanitize (treeOf treeDeep).identifier = c!"T" := by cbv

set_option maxRecDepth 16000 in
private theorem deep_readable : (treeOf treeDeep).children.all readableOf = true := by cbv

set_option maxRecDepth 16000 in
private theorem deep_distinct : distinctOf (treeOf treeDeep).children = true := by cbv

set_option maxRecDepth 16000 in
private theorem deep_ascii : (treeOf treeDeep).children.all (fun f => asciiOf (emitFunction f)) = true := by cbv

set_option maxRecDepth 16000 in
private theorem deep_length : (treeOf treeDeep).children.length = 5 := by cbv

set_option maxRecDepth 16000 in
private theorem deep_mixed : mixedOf (treeOf treeDeep).children (fileDeep []) = true := by cbv

set_option maxRecDepth 16000 in
private theorem deep_mixed2 : mixedOf (treeOf treeDeep).children (fileDeep twoVars) = true := by cbv

set_option maxRecDepth 16000 in
private theorem deep_declared : declaredOf (treeOf treeDeep).children (fileDeep []) = true := by cbv

set_option maxRecDepth 16000 in
private theorem deep_declared2 : declaredOf (treeOf treeDeep).children (fileDeep twoVars) = true := by cbv

set_option maxRecDepth 16000 in
private theorem deep_misplaced : misplacedOf (treeOf treeDeep).children (fileDeep []) 3 = true := by cbv

set_option maxRecDepth 16000 in
private theorem deep_count : filledCount true (treeOf treeDeep).children (fileDeep []) = 3 := by cbv

set_option maxRecDepth 16000 in
private theorem deep_count2 : filledCount true (treeOf treeDeep).children (fileDeep twoVars) = 5 := by cbv

set_option maxRecDepth 16000 in
private theorem deep_tests : (treeOf treeDeep).children.all (fun f => decide (f.ty = .modifier) || decide (Present (fileDeep twoVars).parts f)) = true := by cbv

private theorem toMove_lt {skip : Bool} {fns : List HFn} {L : Layout} {i : Nat} (h : ToMove skip fns L i) : i < fns.length := by
  obtain ⟨i0, h1, ⟨f, _, _, _, _, hf, _⟩, h3⟩ := h
  by_cases e : i0 = i
  · subst e; exact (List.getElem?_eq_some_iff.1 hf).1
  · obtain ⟨g, hg, _⟩ := h3 i (by omega) (Nat.le_refl i)
    exact (List.getElem?_eq_some_iff.1 hg).1

/-- C106: with `-m`, exchanging two tests makes `check --fix` crash if the modifiers are not in the contract. With two variables, it does not. -/
example : ∃ P, Reader P anyFile ∧ fixContext P (caseOf treeDeep (fileDeep []) true) = .panic ∧
    fixContext P (caseOf treeDeep (fileDeep twoVars) true) ≠ .panic := by
  obtain ⟨P, hP, hPt⟩ := reader_exists anyFile
  have key := fun (more : List (Seg × Str)) (hfit : (fileDeep more).Fits anyFile) (hm : mixedOf (treeOf treeDeep).children (fileDeep more) = true)
      (hA : Ascii (fileDeep more).text) (hD : declaredOf (treeOf treeDeep).children (fileDeep more) = true) =>
    C106_crash_iff anyFile_generated hP (n := (treeOf treeDeep).identifier) (ctx := caseOf treeDeep (fileDeep more) true)
      (caseOf_hir _ _ _) (fun f hf => (readableOf_legible (List.all_eq_true.1 deep_readable f hf)).2.2) hfit hfit (caseOf_src _ _ _)
      (hPt _ hfit) (.same (by rw [deep_name]; intro m hm; exact (Option.some.inj hm).symm)) (by show '{' ∉ c!"contract T "; decide)
      (distinctOf_distinct deep_distinct) (mixedOf_mixed hm) hA hA
      (fun f hf => asciiOf_ascii (List.all_eq_true.1 deep_ascii f hf)) (declaredOf_declared hD)
  refine ⟨P, hP, ?_, fun h => ?_⟩
  · refine (key [] (fitsOf_fits (by decide +kernel)) deep_mixed (asciiOf_ascii (by decide +kernel)) deep_declared).1.2 (.inr ⟨3, ⟨3, Nat.le_refl 3, ?_, fun m h1 h2 => by omega⟩, ?_⟩)
    · exact (misplacedOf_iff _ _ _).1 deep_misplaced
    · exact Nat.le_of_eq deep_count
  · rcases (key twoVars (fitsOf_fits (by decide +kernel)) deep_mixed2 (asciiOf_ascii (by decide +kernel)) deep_declared2).1.1 h with h | ⟨i, h1, h2⟩
    · obtain ⟨_, i, f, g, _, hg, _, hgt, _, hng⟩ := h
      have := List.all_eq_true.1 deep_tests g (List.mem_of_getElem? hg)
      simp only [Bool.or_eq_true, decide_eq_true_eq, hgt, reduceCtorEq, false_or] at this
      exact hng this
    · have h3 := toMove_lt h1
      rw [deep_length] at h3
      have h4 : 5 ≤ i := deep_count2 ▸ h2
      omega

/-- A constructor and two tests in the wrong order. -/
private def fileCtor : Layout := ⟨[], some c!"T", c!"contract T ", c!"\n",
  [(.fn .constructor none c!"constructor() {}", c!"\n"), (fnSeg c!"test_B" [], c!"\n"), (fnSeg c!"test_A" [], c!"\n")], c!"\n"⟩

set_option maxRecDepth 16000 in
private theorem ctor_declared : declaredOf (treeOf treeABC).children fileCtor = true := by cbv

set_option maxRecDepth 16000 in
private theorem ctor_triple : noTripleOf (treeOf treeABC).children fileCtor = true := by cbv

set_option maxRecDepth 16000 in
private theorem ctor_misplaced : misplacedOf (treeOf treeABC).children fileCtor 0 = true := by cbv

/-- C106: a constructor makes sorting crash. -/
example : ∃ P, Reader P anyFile ∧ fixContext P (caseOf treeABC fileCtor false) = .panic := by
  obtain ⟨P, hP, hPt⟩ := reader_exists anyFile
  have hfit : fileCtor.Fits anyFile := fitsOf_fits (by decide +kernel)
  refine ⟨P, hP, (C106_unnamed anyFile_generated hP (n := (treeOf treeABC).identifier)
    (ctx := caseOf treeABC fileCtor false) (caseOf_hir _ _ _) abc_fns hfit hfit (caseOf_src _ _ _) (hPt _ hfit)
    (.same (by rw [abc_name]; intro m hm; exact (Option.some.inj hm).symm)) (by decide) rfl (distinctOf_distinct abc_distinct)
    (noTripleOf_triple ctor_triple) (asciiOf_ascii (by decide +kernel)) (asciiOf_ascii (by decide +kernel))
    (fun f hf => asciiOf_ascii (List.all_eq_true.1 abc_ascii f hf)) (declaredOf_declared ctor_declared)
    (ty := .constructor) (t := c!"constructor() {}") (by simp [fileCtor])).2 fun h => ?_⟩
  exact misplaced_iff.1 h 0 ((misplacedOf_iff _ _ _).1 ctor_misplaced)

end Bulloak
