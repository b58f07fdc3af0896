import Verif.Props.Wrap
import Verif.Props.EditCases2
/-! # Putting branches below a new condition: concrete cases meeting the hypotheses -/

namespace Bulloak
open Spec
set_option linter.unusedSectionVars false

/-- The titles around a new condition, and the conditions put below it. -/
private def wrappedOf (t : Str) : Nat → List Ast → List Ast → Option (List Str × List Ast)
  | 0, _, _ => none
  | k + 1, l, l' => match l, l' with
    | .condition s u ks :: l, .condition s' u' ks' :: l' =>
      if u' = t ∧ ks' ≠ [] ∧ ((Ast.condition s u ks :: l).take ks'.length).all Ast.isCondition = true ∧ resitedOf k ((Ast.condition s u ks :: l).take ks'.length) ks' = true ∧
        resitedOf k ((Ast.condition s u ks :: l).drop ks'.length) l' = true then some ([], (Ast.condition s u ks :: l).take ks'.length)
      else if resitedOf k [.condition s u ks] [.condition s' u' ks'] = true then wrappedOf t k l l'
      else if u = u' ∧ resitedOf k l l' = true then (wrappedOf t k ks ks').map (fun x => (u :: x.1, x.2)) else none
    | a :: l, a' :: l' => if resitedOf k [a] [a'] = true then wrappedOf t k l l' else none
    | _, _ => none

private theorem wrappedOf_wrapped {t : Str} {k : Nat} {l l' B : List Ast} {p : List Str} (h : wrappedOf t k l l' = some (p, B)) : Wrapped t B p l l' := by
  induction k generalizing l l' p with
  | zero => cases h
  | succ k ih =>
    unfold wrappedOf at h
    split at h
    · rename_i s u ks l s' u' ks' l'
      split at h
      · rename_i h1
        obtain ⟨rfl, h1, h2, h3, h4⟩ := h1
        simp only [Option.some.injEq, Prod.mk.injEq] at h
        obtain ⟨rfl, rfl⟩ := h
        have h5 := Wrapped.here (t := u') (s := s') (l := (Ast.condition s u ks :: l).drop ks'.length) (l' := l') (B := (Ast.condition s u ks :: l).take ks'.length)
          (by cases ks' with
            | nil => exact absurd rfl h1
            | cons => simp) (List.all_eq_true.1 h2) (resitedOf_resited h3) (resitedOf_resited h4)
        rwa [List.take_append_drop] at h5
      · split at h
        · rename_i h1
          exact .later (resitedOf_resited h1) (ih h)
        · split at h
          · rename_i h1
            obtain ⟨rfl, h1⟩ := h1
            obtain ⟨⟨q, B'⟩, h2, h3⟩ := Option.map_eq_some_iff.1 h
            simp only [Prod.mk.injEq] at h3
            obtain ⟨rfl, rfl⟩ := h3
            exact .inside (ih h2) (resitedOf_resited h1)
          · cases h
    · split at h
      · rename_i h1
        exact .later (resitedOf_resited h1) (ih h)
      · cases h
    · cases h

attribute [local instance] asciiUcd

/-- `treePRQ` with two conditions in place of one below the last condition. -/
def treeFlat : Str :=
  c!"T\n├── when p\n│   ├── it a\n│   └── it reverts\n├── it c\n└── when q\n    ├── it b\n    ├── when y\n    │   └── it e\n    └── when z\n        └── it d"

/-- Both put below a new condition. -/
def treeWrapped : Str :=
  c!"T\n├── when p\n│   ├── it a\n│   └── it reverts\n├── it c\n└── when q\n    ├── it b\n    └── when w\n        ├── when y\n        │   └── it e\n        └── when z\n            └── it d"

/-- A file for `treeFlat`. -/
def fileFlat : Layout := ⟨[], some c!"T", c!"contract T ", c!"\n",
  [(fnSeg c!"test_WhenP" c!"a();", c!"\n"), (fnSeg c!"test_C" c!"", c!"\n"),
    (.fn .modifier (some c!"whenQ") c!"modifier whenQ() { _; }", c!"\n"),
    (.other c!"uint x;", c!"\n"), (fnSeg c!"test_WhenQ" c!"b();", c!"\n"), (fnSeg c!"test_WhenY" c!"", c!"\n"), (fnSeg c!"test_WhenZ" c!"", c!"\n")], c!"\n"⟩

/-- A file for `treeWrapped`. -/
def fileWrapped : Layout := ⟨[], some c!"T", c!"contract T ", c!"\n",
  [(fnSeg c!"test_WhenP" c!"a();", c!"\n"), (fnSeg c!"test_C" c!"", c!"\n"),
    (.fn .modifier (some c!"whenQ") c!"modifier whenQ() { _; }", c!"\n"),
    (.other c!"uint x;", c!"\n"), (fnSeg c!"test_WhenQ" c!"b();", c!"\n"), (.fn .modifier (some c!"whenW") c!"modifier whenW() { _; }", c!"\n"),
    (fnSeg c!"test_WhenY" c!"", c!"\n"), (fnSeg c!"test_WhenZ" c!"", c!"\n")], c!"\n"⟩

set_option maxRecDepth 16000 in
theorem flat_parse : parse id treeFlat = .ok [onlyOf treeFlat] := onlyOf_eq (by cbv)
set_option maxRecDepth 16000 in
theorem wrapped_parse : parse id treeWrapped = .ok [onlyOf treeWrapped] := onlyOf_eq (by cbv)
set_option maxRecDepth 16000 in
theorem flat_title : titleOf (onlyOf treeWrapped) = titleOf (onlyOf treeFlat) := by cbv
set_option maxRecDepth 16000 in
theorem flat_translate : translate id .default treeFlat = .ok ⟨[treeOf treeFlat]⟩ := treeOf_eq (by cbv)
set_option maxRecDepth 16000 in
theorem wrapped_translate : translate id .default treeWrapped = .ok ⟨[treeOf treeWrapped]⟩ := treeOf_eq (by cbv)
set_option maxRecDepth 16000 in
theorem wrapped_distinct : distinctOf (treeOf treeWrapped).children = true := by cbv
set_option maxRecDepth 16000 in
theorem flat_check (skip : Bool) : checkCtx (caseOf treeFlat fileFlat skip) = .ok [] := by cases skip <;> cbv
set_option maxRecDepth 16000 in
theorem wrapped_check : checkCtx (caseOf treeWrapped fileWrapped false) = .ok [] := by cbv
set_option maxRecDepth 16000 in
theorem wrapped_absent : (treeOf treeWrapped).children.all (fun f => !decide (nameOf f = (.modifier, camel c!"when w")) || !fileFlat.parts.any (fun p => decide (Matches f p))) = true := by cbv

set_option maxRecDepth 16000 in
theorem wrapped_readable : (treeOf treeWrapped).children.all readableOf = true := by cbv

/-- The conditions that are put below the new one. -/
private def movedOf : Option (List Str × List Ast) := wrappedOf c!"when w" 12 (kids (onlyOf treeFlat)) (kids (onlyOf treeWrapped))

set_option maxRecDepth 16000 in
private theorem moved_path : movedOf.map Prod.fst = some [c!"when q"] := by cbv
set_option maxRecDepth 16000 in
private theorem moved_names : movedOf.map (fun x => namesIn x.2) = some [(.function, c!"test_WhenY"), (.function, c!"test_WhenZ")] := by cbv

private theorem flat_wrapped : ∃ B, Wrapped c!"when w" B [c!"when q"] (kids (onlyOf treeFlat)) (kids (onlyOf treeWrapped)) ∧
    namesIn B = [(.function, c!"test_WhenY"), (.function, c!"test_WhenZ")] := by
  have h1 := moved_path
  have h2 := moved_names
  cases h : movedOf with
  | none => rw [h] at h1; cases h1
  | some x =>
    obtain ⟨p, B⟩ := x
    rw [h] at h1 h2
    obtain rfl := Option.some.inj h1
    exact ⟨B, wrappedOf_wrapped h, Option.some.inj h2⟩

section
attribute [local irreducible] treeOf astsOf onlyOf

/-- C133: the modifier of the new condition is added in front of the tests of the two conditions, which get it behind that of the condition around. -/
example : ∃ X Y Z X' g Y' Z', translate id .default treeFlat = .ok ⟨[⟨titleOf (onlyOf treeFlat), X ++ Y ++ Z⟩]⟩ ∧
      translate id .default treeWrapped = .ok ⟨[⟨titleOf (onlyOf treeWrapped), X' ++ g :: (Y' ++ Z')⟩]⟩ ∧ Each SameCode X X' ∧ Each SameCode Z Z' ∧
      Each (Reguarded [camel c!"when q"] [camel c!"when q", camel c!"when w"]) Y Y' ∧ Y.map nameOf = [(.function, c!"test_WhenY"), (.function, c!"test_WhenZ")] ∧
      nameOf g = (.modifier, camel c!"when w") := by
  haveI := lawful_ascii
  obtain ⟨B, hw, hB⟩ := flat_wrapped
  obtain ⟨X, Y, Z, X', g, Y', Z', h1, h2, h3, h4, h5, h6, h7, _⟩ := C133_functions flat_parse wrapped_parse hw .default
  exact ⟨X, Y, Z, X', g, Y', Z', h1, h2, h3, h4, h5, h6.trans hB, h7⟩

private theorem absent_new : ∀ f ∈ (treeOf treeWrapped).children, nameOf f = (.modifier, camel c!"when w") → ¬ Present fileFlat.parts f := by
  rintro f hf hm ⟨p, hp, hmp⟩
  have := List.all_eq_true.1 wrapped_absent f hf
  simp only [Bool.or_eq_true, Bool.not_eq_true', List.any_eq_false, decide_eq_false_iff_not] at this
  rcases this with h | h
  · exact h hm
  · exact h p hp (decide_eq_true hmp)

/-- C133: with the file of the tree without the new condition, its modifier is missing. -/
example : ∃ i g, (treeOf treeWrapped).children[i]? = some g ∧ nameOf g = (.modifier, camel c!"when w") ∧
    checkCtx { caseOf treeFlat fileFlat false with hir := ⟨[treeOf treeWrapped]⟩ } = .ok [⟨.matchingFunctionMissing g i, .code c!"a.tree" g.span.start.line⟩] := by
  haveI := lawful_ascii
  obtain ⟨B, hw, _⟩ := flat_wrapped
  exact C133_check flat_parse wrapped_parse flat_title hw (ctx := caseOf treeFlat fileFlat false) flat_translate (n' := (treeOf treeWrapped).identifier)
    (fns' := (treeOf treeWrapped).children) wrapped_translate (flat_check false) (distinctOf_distinct wrapped_distinct) (fun s hs => by rw [first_case hs]; exact absent_new)

/-- C133: with `-m`, nothing is reported. -/
example : checkCtx { caseOf treeFlat fileFlat true with hir := ⟨[treeOf treeWrapped]⟩ } = .ok [] := by
  haveI := lawful_ascii
  obtain ⟨B, hw, _⟩ := flat_wrapped
  obtain ⟨i, g, _, _, h⟩ := C133_check flat_parse wrapped_parse flat_title hw (ctx := caseOf treeFlat fileFlat true) flat_translate (n' := (treeOf treeWrapped).identifier)
    (fns' := (treeOf treeWrapped).children) wrapped_translate (flat_check true) (distinctOf_distinct wrapped_distinct) (fun s hs => by rw [first_case hs]; exact absent_new)
  exact h

/-- C133: the fix adds the modifier; then the file conforms to both trees. -/
example : ∃ P, Reader P anyFile ∧ ∃ (L' : Layout) (u : SolUnit) (k : Nat), fixContext P { caseOf treeFlat fileFlat false with hir := ⟨[treeOf treeWrapped]⟩ } =
      .ok ({ caseOf treeFlat fileFlat false with hir := ⟨[treeOf treeWrapped]⟩, src := L'.text, pt := u }, k) ∧ L'.segs.length = 8 ∧
    checkCtx { caseOf treeFlat fileFlat false with hir := ⟨[treeOf treeWrapped]⟩, src := L'.text, pt := u } = .ok [] ∧
    checkCtx { caseOf treeFlat fileFlat false with src := L'.text, pt := u } = .ok [] := by
  haveI := lawful_ascii
  obtain ⟨B, hw, _⟩ := flat_wrapped
  obtain ⟨P, hP, hPt⟩ := reader_exists anyFile
  have hfit : fileFlat.Fits anyFile := fitsOf_fits (by decide +kernel)
  obtain ⟨A, g, C, _, _, L', u, k, h1, _, _, _, _, _, _, h2, _, _, h3, h4⟩ := C133_fix anyFile_generated hP flat_parse wrapped_parse flat_title hw
    (ctx := caseOf treeFlat fileFlat false) rfl flat_translate (n' := (treeOf treeWrapped).identifier) (fns' := (treeOf treeWrapped).children) wrapped_translate (flat_check false)
    (distinctOf_distinct wrapped_distinct) (fun f hf => (readableOf_legible (List.all_eq_true.1 wrapped_readable f hf)).2.2) hfit (caseOf_src _ _ _) (hPt _ hfit) (by decide) absent_new
  exact ⟨P, hP, L', u, k, h1, by simpa [fileFlat] using h2.length_eq, h3, h4⟩

/-- C133: the file of the tree with the new condition conforms to the tree without it. -/
example : checkCtx { caseOf treeWrapped fileWrapped false with hir := ⟨[treeOf treeFlat]⟩ } = .ok [] := by
  haveI := lawful_ascii
  obtain ⟨B, hw, _⟩ := flat_wrapped
  exact C133_unwrap flat_parse wrapped_parse flat_title.symm hw (ctx := caseOf treeWrapped fileWrapped false) flat_translate wrapped_translate wrapped_check

end

/-- A tree file and its Solidity file. -/
private def deskOf (text : Str) (L : Layout) : Fs :=
  ⟨fun p => if p = ⟨[], c!"a.tree"⟩ then .text text else if p = ⟨[], c!"a.t.sol"⟩ then .text L.text else .absent, fun _ => true⟩

/-- A parser that reads one Solidity file. -/
private def envOf (L : Layout) : Env := ⟨some, fun s => if s = L.text then some [.contract L.contract] else none, fun c => some c.src, id⟩

private def argsOf (skip : Bool) : CheckArgs := ⟨[⟨[], c!"a.tree"⟩], false, false, skip⟩

private theorem a_sol : SolOf ⟨[], c!"a.tree"⟩ ⟨[], c!"a.t.sol"⟩ := (solOf_iff _ _).2 (by decide +kernel)

private theorem desk_tree (text : Str) (L : Layout) : (deskOf text L).state ⟨[], c!"a.tree"⟩ = .text text := by simp [deskOf]

private theorem desk_sol (text : Str) (L : Layout) : (deskOf text L).state ⟨[], c!"a.t.sol"⟩ = .text L.text := by simp [deskOf]

private theorem desk_parse (L : Layout) : (envOf L).solParse L.text = some [.contract L.contract] := by simp [envOf]

section
attribute [local irreducible] treeOf astsOf onlyOf

/-- C133: `check` succeeds for the tree; with the new condition it exits with 1, and with `-m` it still succeeds. -/
example (skip : Bool) : (checkRun (envOf fileFlat) (argsOf skip) (deskOf treeWrapped fileFlat)).exit = .code (if skip = true then 0 else 1) := by
  haveI := lawful_ascii
  obtain ⟨B, hw, _⟩ := flat_wrapped
  have hpass : (checkRun (envOf fileFlat) (argsOf skip) (deskOf treeFlat fileFlat)).exit = .code 0 := by
    have ho : Opens (envOf fileFlat) skip (deskOf treeFlat fileFlat) ⟨[], c!"a.tree"⟩ (caseOf treeFlat fileFlat skip) :=
      ⟨treeFlat, _, _, fileFlat.text, _, desk_tree _ _, flat_translate, a_sol, desk_sol _ _, desk_parse _, rfl⟩
    rcases C51_exit (env := envOf fileFlat) (a := argsOf skip) (fs := deskOf treeFlat fileFlat) rfl with ⟨h, _⟩ | ⟨_, _, t, hm, h⟩ | ⟨_, t, hm, ctx, h1, h2⟩
    · exact h
    · rw [List.mem_singleton.1 hm] at h
      exact absurd (flat_check skip) (h _ ho)
    · rw [List.mem_singleton.1 hm] at h1
      rw [opens_unique h1 ho, flat_check skip] at h2
      cases h2
  have path : ∀ {p}, SolOf ⟨[], c!"a.tree"⟩ p → p = ⟨[], c!"a.t.sol"⟩ := fun hp => ((solOf_iff _ _).1 hp).trans ((solOf_iff _ _).1 a_sol).symm
  refine C133_exit (env := envOf fileFlat) (a := argsOf skip) (fs := deskOf treeFlat fileFlat) (text := treeFlat) (text' := treeWrapped) rfl ?_ (List.mem_singleton.2 rfl)
    (fun u hu hne => absurd (List.mem_singleton.1 hu) hne) (desk_tree _ _) (desk_tree _ _) flat_parse wrapped_parse flat_title hw (n' := (treeOf treeWrapped).identifier)
    (fns' := (treeOf treeWrapped).children) wrapped_translate (distinctOf_distinct wrapped_distinct) ?_ hpass
  · intro t ht p hp
    rw [List.mem_singleton.1 ht] at hp
    rw [path hp, desk_sol, desk_sol]
  · intro p src u s hp hsrc hu hs
    rw [path hp, desk_sol] at hsrc
    cases hsrc
    rw [desk_parse] at hu
    cases hu
    rw [first_case hs]
    exact absent_new

end

set_option maxRecDepth 16000 in
private theorem flat_readable : (treeOf treeFlat).children.all readableOf = true := by cbv
set_option maxRecDepth 16000 in
private theorem flat_distinct : distinctOf (treeOf treeFlat).children = true := by cbv
set_option maxRecDepth 16000 in
private theorem flat_name : sanitize (treeOf treeFlat).identifier = c!"T" := by cbv
set_option maxRecDepth 16000 in
private theorem wrapped_name : sanitize (treeOf treeWrapped).identifier = c!"T" := by cbv
set_option maxRecDepth 16000 in
private theorem flat_order : inOrderOf (treeOf treeFlat).children fileFlat = true := by cbv

section
attribute [local irreducible] treeOf astsOf onlyOf

private theorem single_of {text : Str} (hp : parse id text = .ok [onlyOf text]) (ht : translate id .default text = .ok ⟨[treeOf text]⟩)
    (hr : (treeOf text).children.all readableOf = true) (hn : sanitize (treeOf text).identifier = c!"T") (hd : distinctOf (treeOf text).children = true) :
    OneTree (envOf fileFlat) text (onlyOf text) := by
  refine ⟨hp, ?_, ?_⟩
  · intro n fns h
    have e : treeOf text = ⟨n, fns⟩ := by simpa using Res.ok.inj (ht.symm.trans h)
    rw [e] at hn hr
    rw [hn]
    exact ⟨identOf_ident (by decide), by decide, fun f hf => (readableOf_legible (List.all_eq_true.1 hr f hf)).1,
      fun f hf => (readableOf_legible (List.all_eq_true.1 hr f hf)).2.1⟩
  · intro n fns h
    have e : treeOf text = ⟨n, fns⟩ := by simpa using Res.ok.inj (ht.symm.trans h)
    rw [e] at hd
    exact distinctOf_distinct hd

/-- C133: putting the two conditions below the new one is a step of a session with the file of the tree without it. -/
example : Step (envOf fileFlat) anyFile c!"a.tree" ⟨[], c!"a.tree"⟩ ⟨[], c!"a.t.sol"⟩ (deskOf treeFlat fileFlat)
    (put (deskOf treeFlat fileFlat) ⟨[], c!"a.tree"⟩ treeWrapped) := by
  haveI := lawful_ascii
  obtain ⟨B, hw, _⟩ := flat_wrapped
  exact (C133_step (single_of flat_parse flat_translate flat_readable flat_name flat_distinct)
    (single_of wrapped_parse wrapped_translate wrapped_readable wrapped_name wrapped_distinct) flat_title hw (n := (treeOf treeFlat).identifier) (n' := (treeOf treeWrapped).identifier)
    flat_translate wrapped_translate (desk_sol _ _) (fitsOf_fits (by decide +kernel))).1 (desk_tree _ _) (inOrderOf_inOrder flat_order) absent_new

end
end Bulloak
