import Verif.Lemmas.FixEval
/-! # Properties: fixing, cases in which it goes wrong, and concrete cases meeting the hypotheses -/

namespace Bulloak
open Spec
set_option linter.unusedSectionVars false

section
variable [U : Ucd]

/-- A tree, a Solidity file whose first contract has the right name, and a parser that reads this file and the files with
functions inserted correctly, and no file wrongly. -/
structure FixCase (P : SolParser) (n : Str) (fns : List HFn) (ctx : Context) (L : Layout) : Prop where
  tree : ∃ text, translate id .default text = .ok ctx.hir
  hir : ctx.hir = ⟨[⟨n, fns⟩]⟩
  src : ctx.src = L.text
  pt : FirstContract ctx.pt L.contract
  name : L.name = some (sanitize n)
  brace : '{' ∉ L.header
  reads : ∀ k L', Filling ctx.skipModifiers fns L k L' → ReadsAs P L'
  sound : ∀ src u, P src = some u → ∃ L' : Layout, L'.text = src ∧ FirstContract u L'.contract

/-- The contract of a tree, for concrete cases. -/
def treeOf (text : Str) : HContract := (contractOf text).getD ⟨[], []⟩

/-- A context for the tree and the file. -/
def caseOf (text : Str) (L : Layout) (skip : Bool) : Context :=
  ⟨c!"a.tree", ⟨[treeOf text]⟩, c!"a.t.sol", L.text, [.contract L.contract], skip⟩

theorem caseOf_hir (text : Str) (L : Layout) (skip : Bool) :
    (caseOf text L skip).hir = ⟨[⟨(treeOf text).identifier, (treeOf text).children⟩]⟩ := rfl

theorem caseOf_src (text : Str) (L : Layout) (skip : Bool) : (caseOf text L skip).src = L.text := rfl

theorem caseOf_pt (text : Str) (L : Layout) (skip : Bool) : FirstContract (caseOf text L skip).pt L.contract := ⟨0, [], rfl⟩

theorem first_single (s : SolContract) : FirstContract [.contract s] s := ⟨0, [], rfl⟩

theorem ok_of {α ε : Type} {r : Res ε α} {g : α → Bool} (h : (match r with | .ok x => g x | _ => false) = true) :
    ∃ x, r = .ok x ∧ g x = true := by
  cases r with
  | ok x => exact ⟨x, rfl, h⟩
  | err => cases h
  | panic => cases h

theorem fixCase {text : Str} {L : Layout} {Ls : List Layout} {skip : Bool} (h : (contractOf text).isSome = true)
    (hn : L.name = some (sanitize (treeOf text).identifier)) (hb : '{' ∉ L.header)
    (hr : readsAll (knows Ls) skip (treeOf text).children L = true) :
    FixCase (knows Ls) (treeOf text).identifier (treeOf text).children (caseOf text L skip) L := by
  refine ⟨⟨text, ?_⟩, rfl, rfl, ⟨0, [], rfl⟩, hn, hb, readsAll_reads hr, ?_⟩
  · obtain ⟨c, hc⟩ := Option.isSome_iff_exists.1 h
    rw [contractOf_eq hc]
    simp [caseOf, treeOf, hc]
  · intro src u hu
    obtain ⟨L', _, h1, h2⟩ := knows_sound hu
    exact ⟨L', h1, h2⟩
end

/-- As `FixCase`, but the header of the contract may contain `{` (in a comment). -/
structure FixCaseAny [U : Ucd] (P : SolParser) (n : Str) (fns : List HFn) (ctx : Context) (L : Layout) : Prop where
  tree : ∃ text, translate id .default text = .ok ctx.hir
  hir : ctx.hir = ⟨[⟨n, fns⟩]⟩
  src : ctx.src = L.text
  pt : FirstContract ctx.pt L.contract
  name : L.name = some (sanitize n)
  reads : ∀ k L', Filling ctx.skipModifiers fns L k L' → ReadsAs P L'
  sound : ∀ src u, P src = some u → ∃ L' : Layout, L'.text = src ∧ FirstContract u L'.contract

/-- An empty contract with a comment in its header. -/
def fileComment : Layout := ⟨[], some c!"T", c!"contract T /* { */ ", c!"\n", [], c!"\n"⟩

/-- What becomes of `fileComment`: the function is in the comment. -/
def fileInside : Layout := ⟨[], some c!"T", c!"contract T /* {\n\n  function test_A() external {\n    // it a\n  } */ ", c!"\n", [], c!"\n"⟩

set_option maxRecDepth 16000 in
/-- Full C43 is false: with a `{` in a comment between the name of the contract and its body, the function is inserted
into the comment, and is still missing. -/
theorem C43_brace_false : ∃ (U : Ucd) (_ : @LawfulUcd U), ¬ ∀ (P : SolParser) (n : Str) (fns : List HFn) (ctx : Context) (L : Layout),
    @FixCaseAny U P n fns ctx L → ctx.skipModifiers = false → Distinct fns → Ascii L.text →
    ∀ ctx' k, @fixContext U P ctx = .ok (ctx', k) → @checkCtx U ctx' = .ok [] := by
  refine ⟨asciiUcd, lawful_ascii, ?_⟩
  intro h
  have ht : (@contractOf asciiUcd c!"T\n└── it a").isSome = true := by cbv
  have hc : @FixCaseAny asciiUcd (knows [fileComment, fileInside, fileComment.insert ⟨c!"test_A", .function, Span.default, none, some [.comment c!"it a"]⟩ 0])
      (@treeOf asciiUcd c!"T\n└── it a").identifier (@treeOf asciiUcd c!"T\n└── it a").children
      (@caseOf asciiUcd c!"T\n└── it a" fileComment false) fileComment := by
    letI := asciiUcd
    refine ⟨⟨c!"T\n└── it a", ?_⟩, rfl, rfl, ⟨0, [], rfl⟩, by cbv, readsAll_reads (by cbv), ?_⟩
    · obtain ⟨c, hc⟩ := Option.isSome_iff_exists.1 ht
      rw [contractOf_eq hc]
      simp [caseOf, treeOf, hc]
    · intro src u hu
      obtain ⟨L', _, h1, h2⟩ := knows_sound hu
      exact ⟨L', h1, h2⟩
  have hs := h _ _ _ _ _ hc rfl (distinctOf_distinct (by cbv)) (asciiOf_ascii (by decide +kernel))
  have hr : (match @fixContext asciiUcd (knows [fileComment, fileInside, fileComment.insert ⟨c!"test_A", .function, Span.default, none, some [.comment c!"it a"]⟩ 0])
      (@caseOf asciiUcd c!"T\n└── it a" fileComment false) with
    | .ok (c, _) => decide (@checkCtx asciiUcd c = .ok [])
    | _ => true) = false := by cbv
  split at hr
  · rename_i c k e
    have := hs c k e
    simp [this] at hr
  · cases hr

/-- Four tests. -/
def treeABCD : Str := c!"T\n├── it a\n├── it b\n├── it c\n└── it d"

/-- A function in a Solidity file. -/
def fnSeg (name body : Str) : Seg := .fn .function (some name) (c!"function " ++ name ++ c!"() {" ++ body ++ c!"}")

/-- The tests of `treeABCD`, reversed. -/
def fileDCBA : Layout := ⟨[], some c!"T", c!"contract T ", c!"\n",
  [(fnSeg c!"test_D" c!"", c!"\n"), (fnSeg c!"test_C" c!"", c!"\n"), (fnSeg c!"test_B" c!"", c!"\n"), (fnSeg c!"test_A" c!"", c!"\n")], c!"\n"⟩

/-- The functions of a file, in another order. -/
def orderOf (L : Layout) (ks : List Nat) : Layout := L.reordered (ks.filterMap (fun k => (L.segs[k]?).map Prod.fst))

set_option maxRecDepth 16000 in
/-- Full C44 is false: with four functions reversed, the order is still wrong after fixing. -/
theorem C44_reversed_false : ∃ (U : Ucd) (_ : @LawfulUcd U), ¬ ∀ (P : SolParser) (n : Str) (fns : List HFn) (ctx : Context) (L : Layout),
    @FixCase U P n fns ctx L → ctx.skipModifiers = false → Distinct fns → OnlyTree fns L → Ascii L.text → Separate L →
    ∀ ctx' k, @fixContext U P ctx = .ok (ctx', k) → @checkCtx U ctx' = .ok [] := by
  refine ⟨asciiUcd, lawful_ascii, ?_⟩
  intro h
  have hc := @fixCase asciiUcd treeABCD fileDCBA [fileDCBA, orderOf fileDCBA [3, 0, 1, 2]] false (by cbv) (by cbv) (by decide) (by cbv)
  have hs := h _ _ _ _ _ hc rfl (distinctOf_distinct (by cbv)) (onlyTreeOf_only (by cbv)) (asciiOf_ascii (by decide +kernel)) (separateOf_separate (marks := c!"ABCDU") (by decide +kernel))
  have hr : (match @fixContext asciiUcd (knows [fileDCBA, orderOf fileDCBA [3, 0, 1, 2]]) (@caseOf asciiUcd treeABCD fileDCBA false) with
    | .ok (c, _) => decide (@checkCtx asciiUcd c = .ok [])
    | _ => true) = false := by cbv
  split at hr
  · rename_i c k e
    have := hs c k e
    simp [this] at hr
  · cases hr

/-- Three tests. -/
def treeABC : Str := c!"T\n├── it a\n├── it b\n└── it c"

/-- The tests of `treeABC`, reversed. -/
def fileCBA : Layout := ⟨[], some c!"T", c!"contract T ", c!"\n",
  [(fnSeg c!"test_C" c!"", c!"\n"), (fnSeg c!"test_B" c!"", c!"\n"), (fnSeg c!"test_A" c!"", c!"\n")], c!"\n"⟩

/-- What becomes of `fileCBA`. -/
def fileABBC : Layout := { fileCBA with segs := [(fnSeg c!"test_A" c!"", c!"\n\n"), (fnSeg c!"test_B" c!"", c!"\n\n"),
  (fnSeg c!"test_B" c!"", c!""), (fnSeg c!"test_C" c!"", c!"\n" ++ spaces 20 ++ c!"\n" ++ spaces 20 ++ c!"\n")] }

set_option maxRecDepth 16000 in
/-- Full C44 is false: with three functions reversed, the one in the middle is there twice after fixing. -/
theorem C44_duplicates_false : ∃ (U : Ucd) (_ : @LawfulUcd U), ¬ ∀ (P : SolParser) (n : Str) (fns : List HFn) (ctx : Context) (L : Layout),
    @FixCase U P n fns ctx L → ctx.skipModifiers = false → Distinct fns → OnlyTree fns L → Ascii L.text → Separate L →
    ∀ ctx' k, @fixContext U P ctx = .ok (ctx', k) → ∀ s ∈ L.segs.map Prod.fst, ∃ x y, ctx'.src = x ++ (s.text ++ y) ∧ Once x s.text y := by
  refine ⟨asciiUcd, lawful_ascii, ?_⟩
  intro h
  have hc := @fixCase asciiUcd treeABC fileCBA [fileCBA, fileABBC] false (by cbv) (by cbv) (by decide) (by cbv)
  have hs := h _ _ _ _ _ hc rfl (distinctOf_distinct (by cbv)) (onlyTreeOf_only (by cbv)) (asciiOf_ascii (by decide +kernel)) (separateOf_separate (marks := c!"ABCDU") (by decide +kernel))
  have hr : (match @fixContext asciiUcd (knows [fileCBA, fileABBC]) (@caseOf asciiUcd treeABC fileCBA false) with
    | .ok (c, _) => decide (c.src = fileABBC.text)
    | _ => false) = true := by cbv
  split at hr
  · rename_i c k e
    obtain ⟨x, y, h1, h2⟩ := hs c k e (fnSeg c!"test_B" c!"") (by simp [fileCBA])
    have hsrc : c.src = fileABBC.text := by simpa using hr
    have e1 : fileABBC.text = (fileABBC.front ++ ((fnSeg c!"test_A" c!"").text ++ c!"\n\n")) ++ ((fnSeg c!"test_B" c!"").text ++
        (c!"\n\n" ++ segsText (fileABBC.segs.drop 2) ++ '}' :: fileABBC.rest)) := by decide +kernel
    have e2 : fileABBC.text = (fileABBC.front ++ segsText (fileABBC.segs.take 2)) ++ ((fnSeg c!"test_B" c!"").text ++
        (segsText (fileABBC.segs.drop 3) ++ '}' :: fileABBC.rest)) := by decide +kernel
    have a1 := h2 _ _ ((h1.symm.trans hsrc).trans e1)
    have a2 := h2 _ _ ((h1.symm.trans hsrc).trans e2)
    have := congrArg List.length (a1.trans a2.symm)
    revert this
    decide +kernel
  · cases hr

/-- A contract with `setUp` before the tests. -/
def fileXACB : Layout := ⟨[], some c!"T", c!"contract T ", c!"\n",
  [(fnSeg c!"setUp" c!"", c!"\n"), (fnSeg c!"test_A" c!"", c!"\n"), (fnSeg c!"test_C" c!"", c!"\n"), (fnSeg c!"test_B" c!"", c!"\n")], c!"\n"⟩

/-- What becomes of `fileXACB`. -/
def fileBACX : Layout := { fileXACB with segs := [(fnSeg c!"test_B" c!"", c!"\n\n"), (fnSeg c!"test_A" c!"", c!"\n\n"),
  (fnSeg c!"test_C" c!"", separator), (fnSeg c!"setUp" c!"", c!"\n" ++ spaces 20 ++ c!"\n" ++ spaces 20 ++ c!"\n" ++ spaces 20 ++ c!"\n")] }

set_option maxRecDepth 16000 in
/-- Full C44 is false: with `setUp` before three tests, two of which are swapped, the order is still wrong after fixing. -/
theorem C44_other_parts_false : ∃ (U : Ucd) (_ : @LawfulUcd U), ¬ ∀ (P : SolParser) (n : Str) (fns : List HFn) (ctx : Context) (L : Layout),
    @FixCase U P n fns ctx L → ctx.skipModifiers = false → Distinct fns → NoReversedTriple fns L.parts → Ascii L.text → Separate L →
    ∀ ctx' k, @fixContext U P ctx = .ok (ctx', k) → @checkCtx U ctx' = .ok [] := by
  refine ⟨asciiUcd, lawful_ascii, ?_⟩
  intro h
  have hc := @fixCase asciiUcd treeABC fileXACB [fileXACB, fileBACX] false (by cbv) (by cbv) (by decide) (by cbv)
  have h3 : NoReversedTriple (@treeOf asciiUcd treeABC).children fileXACB.parts := noTripleOf_triple (by cbv)
  have hs := h _ _ _ _ _ hc rfl (distinctOf_distinct (by cbv)) h3 (asciiOf_ascii (by decide +kernel)) (separateOf_separate (marks := c!"ABCDU") (by decide +kernel))
  have hr : (match @fixContext asciiUcd (knows [fileXACB, fileBACX]) (@caseOf asciiUcd treeABC fileXACB false) with
    | .ok (c, _) => decide (@checkCtx asciiUcd c = .ok [])
    | _ => true) = false := by cbv
  split at hr
  · rename_i c k e
    have := hs c k e
    simp [this] at hr
  · cases hr

set_option maxRecDepth 16000 in
/-- Full C45 is false: with `-m`, a missing test directly after a missing modifier. -/
theorem C45_skip_modifiers_false : ∃ (U : Ucd) (_ : @LawfulUcd U), ¬ ∀ (P : SolParser) (n : Str) (fns : List HFn) (ctx : Context) (L : Layout),
    @FixCase U P n fns ctx L → Distinct fns → Ascii L.text → @fixContext U P ctx ≠ .panic := by
  refine ⟨asciiUcd, lawful_ascii, ?_⟩
  intro h
  have hc := @fixCase asciiUcd c!"T\n└── when a\n    ├── it x\n    └── when b\n        └── it y" ⟨[], some c!"T", c!"contract T ", c!"\n", [], c!"\n"⟩
    [⟨[], some c!"T", c!"contract T ", c!"\n", [], c!"\n"⟩] true (by cbv) (by cbv) (by decide) (by cbv)
  exact h _ _ _ _ _ hc (distinctOf_distinct (by cbv)) (asciiOf_ascii (by decide +kernel)) (by cbv)

/-- Two tests. -/
def treeAB : Str := c!"T\n├── it a\n└── it b"

/-- A contract with a constructor. -/
def fileKBA : Layout := ⟨[], some c!"T", c!"contract T ", c!"\n",
  [(.fn .constructor none c!"constructor() {}", c!"\n"), (fnSeg c!"test_B" c!"", c!"\n"), (fnSeg c!"test_A" c!"", c!"\n")], c!"\n"⟩

set_option maxRecDepth 16000 in
/-- Full C45 is false: a contract with a constructor and two tests in the wrong order. -/
theorem C45_constructor_false : ∃ (U : Ucd) (_ : @LawfulUcd U), ¬ ∀ (P : SolParser) (n : Str) (fns : List HFn) (ctx : Context) (L : Layout),
    @FixCase U P n fns ctx L → ctx.skipModifiers = false → Distinct fns → Ascii L.text → @fixContext U P ctx ≠ .panic := by
  refine ⟨asciiUcd, lawful_ascii, ?_⟩
  intro h
  have hc := @fixCase asciiUcd treeAB fileKBA [fileKBA] false (by cbv) (by cbv) (by decide) (by cbv)
  exact h _ _ _ _ _ hc rfl (distinctOf_distinct (by cbv)) (asciiOf_ascii (by decide +kernel)) (by cbv)

/-- A contract with a comment with non-ASCII characters. -/
def fileUni : Layout := ⟨[], some c!"T", c!"contract T ", c!"\n",
  [(fnSeg c!"test_B" c!"/* 𝔸𝔸𝔸𝔸𝔸𝔸𝔸𝔸𝔸 */", c!"\n"), (fnSeg c!"test_A" c!"", c!"\n")], c!"\n"⟩

set_option maxRecDepth 16000 in
/-- Full C45 is false, and even plain `check` crashes: a contract with two tests in the wrong order and nine wide characters. -/
theorem C45_non_ascii_false : ∃ (U : Ucd) (_ : @LawfulUcd U), ¬ ∀ (P : SolParser) (n : Str) (fns : List HFn) (ctx : Context) (L : Layout),
    @FixCase U P n fns ctx L → ctx.skipModifiers = false → Distinct fns → OnlyTree fns L →
    @fixContext U P ctx ≠ .panic ∨ @checkCtx U ctx ≠ .panic := by
  refine ⟨asciiUcd, lawful_ascii, ?_⟩
  intro h
  have hc := @fixCase asciiUcd treeAB fileUni [fileUni] false (by cbv) (by cbv) (by decide) (by cbv)
  rcases h _ _ _ _ _ hc rfl (distinctOf_distinct (by cbv)) (onlyTreeOf_only (by cbv)) with h | h
  · exact h (by cbv)
  · exact h (by cbv)

/-- A contract with three tests. -/
def fileWABY : Layout := ⟨[], some c!"T", c!"contract T ", c!"\n",
  [(fnSeg c!"test_WhenA" c!"", c!"\n"), (fnSeg c!"test_WhenB" c!"", c!"\n"), (fnSeg c!"test_Y" c!"", c!"\n")], c!"\n"⟩

set_option maxRecDepth 16000 in
/-- Full C45 is false: a tree with colliding test names. -/
theorem C45_repeated_false : ∃ (U : Ucd) (_ : @LawfulUcd U), ¬ ∀ (P : SolParser) (n : Str) (fns : List HFn) (ctx : Context) (L : Layout),
    @FixCase U P n fns ctx L → ctx.skipModifiers = false → Ascii L.text → @fixContext U P ctx ≠ .panic := by
  refine ⟨asciiUcd, lawful_ascii, ?_⟩
  intro h
  have hc := @fixCase asciiUcd c!"T\n├── it when a\n├── it when b\n├── it y\n├── when b\n│   └── it q\n└── when a\n    └── it r" fileWABY [fileWABY]
    false (by cbv) (by cbv) (by decide) (by cbv)
  exact h _ _ _ _ _ hc rfl (asciiOf_ascii (by decide +kernel)) (by cbv)


/-- Two contracts, the name of one being the beginning of the name of the other. -/
def fileFo (a b : Str) : Layout := ⟨[], some a, c!"contract " ++ a ++ c!" ", [], [], c!"\ncontract " ++ b ++ c!" {}\n"⟩

set_option maxRecDepth 8000 in
/-- Full C47 is false: renaming `Fo` to `T` renames `Foo` to `To`. -/
theorem C47_rename_false : ¬ ∀ (P : SolParser) (ctx : Context) (L : Layout) (old new post : Str), ctx.src = L.text →
    FirstContract ctx.pt L.contract → L.name = some old → L.header = c!"contract " ++ old ++ post →
    (∀ src u, P src = some u → ∃ L' : Layout, L'.text = src ∧ FirstContract u L'.contract) →
    ∀ ctx', @fixViolation asciiUcd P (.contractNameNotMatches new old) ctx = .ok ctx' →
      ctx'.src = ({ L with header := c!"contract " ++ new ++ post } : Layout).text := by
  intro h
  have := h (knows [fileFo c!"T" c!"To"]) ⟨[], ⟨[]⟩, [], (fileFo c!"Fo" c!"Foo").text, [.contract (fileFo c!"Fo" c!"Foo").contract], false⟩
    (fileFo c!"Fo" c!"Foo") c!"Fo" c!"T" c!" " rfl ⟨0, [], rfl⟩ rfl rfl (fun src u hu => by
      obtain ⟨L', _, h1, h2⟩ := knows_sound hu
      exact ⟨L', h1, h2⟩)
    ⟨[], ⟨[]⟩, [], (fileFo c!"T" c!"To").text, [.contract (fileFo c!"T" c!"To").contract], false⟩ (by cbv)
  revert this
  decide +kernel

/-! ## Non-vacuity -/
section
attribute [local instance] asciiUcd

/-- A file with the wrong contract name, a state variable and the second of three tests. -/
private def fileB (name : Str) : Layout := ⟨c!"// x\n", some name, c!"contract " ++ name ++ c!" is Test ", c!"\n",
  [(.other c!"uint x;", c!"\n"), (fnSeg c!"test_B" c!"x = 1;", c!"\n")], c!"\n"⟩

private def knownB : SolParser := knows ((List.range 4).filterMap (fillingOf false (treeOf treeABC).children (fileB c!"T")))

set_option maxRecDepth 16000 in
/-- C43: the two missing tests are added and the contract is renamed. -/
example : ∃ L' u, fixContext knownB (caseOf treeABC (fileB c!"U") false) = .ok ({ caseOf treeABC (fileB c!"U") false with src := L'.text, pt := u }, 3) ∧
    FirstContract u L'.contract ∧ Completed false (treeOf treeABC).children (fileB c!"T") L' ∧
    checkCtx { caseOf treeABC (fileB c!"U") false with src := L'.text, pt := u } = .ok [] := by
  obtain ⟨vs, hv, hl⟩ := ok_of (r := checkCtx (caseOf treeABC (fileB c!"U") false)) (g := fun vs => vs.length == 3) (by cbv)
  rw [beq_iff_eq] at hl
  rw [← hl]
  have hn : sanitize (treeOf treeABC).identifier = c!"T" := by cbv
  refine C43_then_silent_partial (n := (treeOf treeABC).identifier) (ctx := caseOf treeABC (fileB c!"U") false) (caseOf_hir _ _ _) (caseOf_src _ _ _)
    (caseOf_pt _ _ _) ?_ (by decide) (readsAll_reads (by cbv)) (by intro i f g _ _ h; cases h) (distinctOf_distinct (by cbv)) (inOrderOf_inOrder (by cbv)) hv
  rw [hn]
  exact Renamed.other (pre := []) (post := c!" is Test ") rfl (by decide) rfl (once_of_char (d := 'U') (by decide) (by decide +kernel))

/-- The second of three tests missing, the others swapped. -/
private def fileCA : Layout := ⟨[], some c!"T", c!"contract T ", c!"\n",
  [(fnSeg c!"test_C" c!"", c!"\n"), (fnSeg c!"test_A" c!"", c!"\n")], c!"\n"⟩

private def knownCA : SolParser :=
  let Ls := (List.range 4).filterMap (fillingOf false (treeOf treeABC).children fileCA)
  knows (Ls ++ Ls.map (fun L => L.reordered (sortedOf (treeOf treeABC).children (L.segs.map Prod.fst))))

set_option maxRecDepth 16000 in
/-- C44: afterwards all three are there in order. -/
example : ∃ L' L'' u vs, checkCtx (caseOf treeABC fileCA false) = .ok vs ∧
    fixContext knownCA (caseOf treeABC fileCA false) = .ok ({ caseOf treeABC fileCA false with src := L''.text, pt := u }, vs.length) ∧
    Completed false (treeOf treeABC).children fileCA L' ∧ (L'' = L' ∨ L'' = L'.reordered (L''.segs.map Prod.fst)) ∧
      (L''.segs.map Prod.fst).Perm (L'.segs.map Prod.fst) ∧ Each Seg.Is (treeOf treeABC).children (L''.segs.map Prod.fst) ∧
      checkCtx { caseOf treeABC fileCA false with src := L''.text, pt := u } = .ok [] := by
  have hn : sanitize (treeOf treeABC).identifier = c!"T" := by cbv
  have hF : (treeOf treeABC).children.all (fun f => asciiOf (emitFunction f)) = true := by cbv
  have hall : ∀ f ∈ (treeOf treeABC).children, Ascii (emitFunction f) := fun f hf => asciiOf_ascii (List.all_eq_true.1 hF f hf)
  obtain ⟨L', L'', u, vs, h1, h2, _, _, h3⟩ := C44_order_partial (P := knownCA) (n := (treeOf treeABC).identifier) (ctx := caseOf treeABC fileCA false) (caseOf_hir _ _ _)
    (caseOf_src _ _ _) (caseOf_pt _ _ _) (.same (by rw [hn]; intro m hm; exact (Option.some.inj hm).symm)) (by decide)
    rfl (distinctOf_distinct (by cbv)) (onlyTreeOf_only (by cbv)) (noTripleOf_triple (by cbv)) (asciiOf_ascii (by decide +kernel))
    (asciiOf_ascii (by decide +kernel)) hall (by decide) (readsAll_reads (by cbv)) (readsSorted_reads (marks := c!"ABC") (by cbv))
  exact ⟨L', L'', u, vs, h1, h2, h3⟩

set_option maxRecDepth 16000 in
/-- C44, exactly: with four functions reversed, fixing succeeds and what it writes is not in order. -/
example : ∃ ctx' k L' ss mid, fixContext (knows [fileDCBA, orderOf fileDCBA [3, 0, 1, 2]]) (caseOf treeABCD fileDCBA false) = .ok (ctx', k) ∧
    Completed false (treeOf treeABCD).children fileDCBA L' ∧
    ctx'.src = L'.front ++ joinSep c!"\n\n" (ss.map Seg.text) ++ mid ++ '}' :: L'.rest ∧ ss.length = (treeOf treeABCD).children.length ∧
    (∀ s ∈ ss, s ∈ L'.segs.map Prod.fst) ∧ ¬ Each Seg.Is (treeOf treeABCD).children ss := by
  have hn : sanitize (treeOf treeABCD).identifier = c!"T" := by cbv
  have hF : (treeOf treeABCD).children.all (fun f => asciiOf (emitFunction f)) = true := by cbv
  obtain ⟨⟨ctx', k⟩, hfix, _⟩ := ok_of (r := fixContext (knows [fileDCBA, orderOf fileDCBA [3, 0, 1, 2]]) (caseOf treeABCD fileDCBA false))
    (g := fun r => r.2 == 3) (by cbv)
  have ha : posOf (treeOf treeABCD).children fileDCBA 0 = some 3 := by cbv
  have hb : posOf (treeOf treeABCD).children fileDCBA 1 = some 2 := by cbv
  have hc : posOf (treeOf treeABCD).children fileDCBA 2 = some 1 := by cbv
  obtain ⟨L', ss, mid, h1, h2, h3, h4, h5⟩ := C44_exact (n := (treeOf treeABCD).identifier) (ctx := caseOf treeABCD fileDCBA false)
    (caseOf_hir _ _ _) (caseOf_src _ _ _) (caseOf_pt _ _ _) (.same (by rw [hn]; intro m hm; exact (Option.some.inj hm).symm)) (by decide)
    rfl (distinctOf_distinct (by cbv)) (onlyTreeOf_only (by cbv)) (asciiOf_ascii (by decide +kernel)) (asciiOf_ascii (by decide +kernel))
    (fun f hf => asciiOf_ascii (List.all_eq_true.1 hF f hf)) (by decide) (readsAll_reads (by cbv))
    (not_inOrder_of_pos 0 1 (by decide) ha hb (by decide)) hfix
  exact ⟨ctx', k, L', ss, mid, hfix, h1, h2, h3, h4, fun h => triple_of_pos 0 1 2 (by decide) (by decide) ha hb hc (by decide) (by decide) (h5.1 h)⟩

set_option maxRecDepth 16000 in
/-- C45: a contract with another function first and the tests out of order. -/
example : (∃ r, fixContext (knows [fileXACB, fileBACX]) (caseOf treeABC fileXACB false) = .ok r) ∨
    ∃ L' ts mid, Filling false (treeOf treeABC).children fileXACB (treeOf treeABC).children.length L' ∧
      (∀ t ∈ ts, ∃ s ∈ L'.segs.map Prod.fst, t = s.text) ∧
      knows [fileXACB, fileBACX] (L'.front ++ joinSep c!"\n\n" ts ++ mid ++ '}' :: L'.rest) = none := by
  have hn : sanitize (treeOf treeABC).identifier = c!"T" := by cbv
  have hF : (treeOf treeABC).children.all (fun f => asciiOf (emitFunction f)) = true := by cbv
  refine C45_no_crash_partial (n := (treeOf treeABC).identifier) (ctx := caseOf treeABC fileXACB false) (caseOf_hir _ _ _)
    (caseOf_src _ _ _) (caseOf_pt _ _ _) (.same (by rw [hn]; intro m hm; exact (Option.some.inj hm).symm)) (by decide)
    rfl (distinctOf_distinct (by cbv)) (by simp [fileXACB, fnSeg]) (asciiOf_ascii (by decide +kernel)) (asciiOf_ascii (by decide +kernel))
    ?_ (by decide) (readsAll_reads (by cbv))
  intro f hf
  exact asciiOf_ascii (List.all_eq_true.1 hF f hf)

/-- A parser that knows what `scaffold` writes for a tree. -/
private def knownSource (text : Str) : SolParser := fun s =>
  if sourceOf .default text = some s then some [.contract ⟨some (sanitize (treeOf text).identifier), 0, 0, (treeOf text).children.map partOf⟩] else none

private theorem regenerate_case {text : Str} (hc : (contractOf text).isSome = true) (hs : (sourceOf .default text).isSome = true)
    (hd : (((treeOf text).children.filter HFn.isFunction).map HFn.identifier).Nodup) (ctx : Context) (hh : ctx.hir = ⟨[treeOf text]⟩)
    (hpt : ctx.pt = [.other, .other]) : ∃ src u, sourceOf .default text = some src ∧
    fixContext (knownSource text) ctx = .ok ({ ctx with src := src, pt := u }, 1) ∧ checkCtx { ctx with src := src, pt := u } = .ok [] := by
  obtain ⟨c, hc⟩ := Option.isSome_iff_exists.1 hc
  obtain ⟨src, hs⟩ := Option.isSome_iff_exists.1 hs
  have ht : translate id .default text = .ok ⟨[⟨(treeOf text).identifier, (treeOf text).children⟩]⟩ := by
    rw [contractOf_eq hc]; simp [treeOf, hc]
  have hsrc : scaffoldSource id .default text = .ok src := by
    have hs' := hs
    unfold sourceOf at hs'
    revert hs'
    split
    · rename_i e; intro h; rw [e]; cases h; rfl
    · intro h; cases h
  refine ⟨src, [.contract ⟨some (sanitize (treeOf text).identifier), 0, 0, (treeOf text).children.map partOf⟩], hs, ?_⟩
  haveI := lawful_ascii
  exact C46_regenerate (fun l => List.Perm.refl _) ht hh (by
    rintro s ⟨k, rest, h⟩
    rw [hpt] at h
    rcases k with _ | _ | _ | k <;> simp [List.replicate_succ] at h) hsrc
    (by unfold knownSource; rw [if_pos hs]) (first_single _) rfl (written_parts _) hd

set_option maxRecDepth 16000 in
/-- C46: a file without a contract. -/
example (ctx : Context) (hh : ctx.hir = ⟨[treeOf treeAB]⟩) (hpt : ctx.pt = [.other, .other]) : ∃ src u, sourceOf .default treeAB = some src ∧
    fixContext (knownSource treeAB) ctx = .ok ({ ctx with src := src, pt := u }, 1) ∧ checkCtx { ctx with src := src, pt := u } = .ok [] := by
  have hc : (contractOf treeAB).isSome = true := by cbv
  have hs : (sourceOf .default treeAB).isSome = true := by cbv
  have hd : decide (((treeOf treeAB).children.filter HFn.isFunction).map HFn.identifier).Nodup = true := by cbv
  exact regenerate_case hc hs (of_decide_eq_true hd) ctx hh hpt

set_option maxRecDepth 8000 in
/-- C47: other contracts whose names do not begin with the old name are not touched. -/
example : ∃ u, fixViolation (fun _ => some []) (.contractNameNotMatches c!"T" c!"Fo")
    ⟨[], ⟨[]⟩, [], (fileFo c!"Fo" c!"Bar").text, [.contract (fileFo c!"Fo" c!"Bar").contract], false⟩ =
    .ok ⟨[], ⟨[]⟩, [], (fileFo c!"T" c!"Bar").text, u, false⟩ :=
  C47_rename_partial (L := fileFo c!"Fo" c!"Bar") (pre := []) (post := c!" ") rfl rfl (once_of_char (d := 'F') (by decide) (by decide +kernel)) (by simp)

end
end Bulloak
