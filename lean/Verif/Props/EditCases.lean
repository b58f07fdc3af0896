import Verif.Props.Edit2
import Verif.Props.FixCases
/-! # Editing trees: cases in which it goes wrong, and concrete cases meeting the hypotheses -/

namespace Bulloak
open Spec
set_option linter.unusedSectionVars false

/-- Whether branches are extended by others. -/
def extendedOf : Nat → List Ast → List Ast → Bool
  | 0, l, l' => l.isEmpty && l'.isEmpty
  | _ + 1, l, [] => l.isEmpty
  | k + 1, l, n :: l' =>
    extendedOf k l l' || match l, n with
      | .action _ t ds :: r, .action _ t' ds' => decide (t = t') && (ds.map titleOf).isSublist (ds'.map titleOf) && extendedOf k r l'
      | .condition _ t ks :: r, .condition _ t' ks' => decide (t = t') && extendedOf k ks ks' &&
          (decide (firstAction ks = none) || decide (firstAction ks' = firstAction ks)) && extendedOf k r l'
      | _, _ => false

theorem extendedOf_extended {k : Nat} {l l' : List Ast} (h : extendedOf k l l' = true) : Extended l l' := by
  induction k generalizing l l' with
  | zero =>
    simp only [extendedOf, Bool.and_eq_true, List.isEmpty_iff] at h
    rw [h.1, h.2]; exact .done
  | succ k ih =>
    cases l' with
    | nil =>
      simp only [extendedOf, List.isEmpty_iff] at h
      rw [h]; exact .done
    | cons n l' =>
      simp only [extendedOf, Bool.or_eq_true] at h
      rcases h with h | h
      · exact .add (ih h)
      · split at h
        · simp only [Bool.and_eq_true, decide_eq_true_eq, List.isSublist_iff_sublist] at h
          obtain ⟨⟨rfl, h1⟩, h2⟩ := h
          exact .action h1 (ih h2)
        · simp only [Bool.and_eq_true, Bool.or_eq_true, decide_eq_true_eq] at h
          obtain ⟨⟨⟨rfl, h1⟩, h2⟩, h3⟩ := h
          exact .condition (ih h1) h2 (ih h3)
        · cases h

/-- Whether the added functions are missing in a file. -/
def absentOf (fns fns' : List HFn) (L : Layout) : Bool :=
  fns'.all fun f => (fns.map nameOf).contains (nameOf f) || !L.parts.any (fun p => decide (Matches f p))

theorem absentOf_absent {fns fns' : List HFn} {L : Layout} (h : absentOf fns fns' L = true) :
    ∀ f ∈ fns', nameOf f ∉ fns.map nameOf → ¬ Present L.parts f := by
  rintro f hf hm ⟨p, hp, hmp⟩
  have := List.all_eq_true.1 h f hf
  simp only [Bool.or_eq_true, List.contains_iff_mem, Bool.not_eq_true', List.any_eq_false] at this
  rcases this with h | h
  · exact hm h
  · exact h p hp (decide_eq_true hmp)

theorem first_case {s s' : SolContract} (h : FirstContract [.contract s] s') : s' = s := by
  obtain ⟨k, rest, e⟩ := h
  cases k with
  | zero => simp at e; exact e.1.symm
  | succ k => simp [List.replicate_succ] at e

/-- A tree with two tests. -/
def treePQ : Str := c!"T\n├── when p\n│   └── it a\n└── when q\n    └── it b"

/-- With two actions, a test and a nested condition added. -/
def treePRQ : Str := c!"T\n├── when p\n│   ├── it a\n│   └── it reverts\n├── it c\n└── when q\n    ├── it b\n    │   └── as stated\n    └── when z\n        └── it d"

/-- A file for `treePQ`. -/
def filePQ : Layout := ⟨[], some c!"T", c!"contract T ", c!"\n",
  [(fnSeg c!"test_WhenP" c!"a();", c!"\n"), (.other c!"uint x;", c!"\n"), (fnSeg c!"test_WhenQ" c!"b();", c!"\n")], c!"\n"⟩

/-- The only tree of a text. -/
def onlyOf [Ucd] (text : Str) : Ast := (astsOf text).headD (.root Span.default [] [])

theorem onlyOf_eq {U : Ucd} {text : Str} (h : (astsOf text).length = 1) : parse id text = .ok [onlyOf text] := by
  rw [astsOf_eq (by intro e; rw [e] at h; cases h)]
  unfold onlyOf
  match astsOf text, h with
  | [a], _ => rfl

attribute [local instance] asciiUcd

set_option maxRecDepth 16000 in
theorem pq_parse : parse id treePQ = .ok [onlyOf treePQ] := onlyOf_eq (by cbv)

set_option maxRecDepth 16000 in
theorem prq_parse : parse id treePRQ = .ok [onlyOf treePRQ] := onlyOf_eq (by cbv)

set_option maxRecDepth 16000 in
theorem pq_extended : Extended (kids (onlyOf treePQ)) (kids (onlyOf treePRQ)) := extendedOf_extended (k := 8) (by cbv)

set_option maxRecDepth 16000 in
theorem pq_title : titleOf (onlyOf treePQ) = titleOf (onlyOf treePRQ) := by cbv

theorem treeOf_eq {text : Str} (h : (contractOf text).isSome = true) : translate id .default text = .ok ⟨[treeOf text]⟩ := by
  obtain ⟨c, hc⟩ := Option.isSome_iff_exists.1 h
  unfold treeOf
  rw [hc]
  exact contractOf_eq hc

set_option maxRecDepth 16000 in
theorem pq_translate : translate id .default treePQ = .ok ⟨[treeOf treePQ]⟩ := treeOf_eq (by cbv)

set_option maxRecDepth 16000 in
theorem prq_translate : translate id .default treePRQ = .ok ⟨[treeOf treePRQ]⟩ := treeOf_eq (by cbv)

set_option maxRecDepth 16000 in
theorem pq_names : (treeOf treePQ).children.map nameOf = [(.function, c!"test_WhenP"), (.function, c!"test_WhenQ")] := by cbv

set_option maxRecDepth 16000 in
theorem prq_names : (treeOf treePRQ).children.map nameOf = [(.function, c!"test_WhenP"), (.function, c!"test_C"),
    (.modifier, c!"whenQ"), (.function, c!"test_WhenQ"), (.function, c!"test_WhenZ")] := by cbv

set_option maxRecDepth 16000 in
theorem pq_check (skip : Bool) : checkCtx (caseOf treePQ filePQ skip) = .ok [] := by cases skip <;> cbv

set_option maxRecDepth 16000 in
theorem prq_distinct : distinctOf (treeOf treePRQ).children = true := by cbv

set_option maxRecDepth 16000 in
theorem prq_absent : absentOf (treeOf treePQ).children (treeOf treePRQ).children filePQ = true := by cbv

set_option maxRecDepth 16000 in
theorem prq_ident : (treeOf treePRQ).identifier = (treeOf treePQ).identifier := by cbv

/-- C95: the functions of the old tree are among those of the new one. -/
example : ∃ fns fns', translate id .default treePQ = .ok ⟨[⟨titleOf (onlyOf treePQ), fns⟩]⟩ ∧
    translate id .default treePRQ = .ok ⟨[⟨titleOf (onlyOf treePRQ), fns'⟩]⟩ ∧ Within Richer fns fns' :=
  haveI := lawful_ascii
  C95_functions pq_parse prq_parse pq_extended .default

theorem prq_hir : (⟨[treeOf treePRQ]⟩ : HRoot) = ⟨[⟨(treeOf treePQ).identifier, (treeOf treePRQ).children⟩]⟩ := by
  rw [← prq_ident]

/-- C95: `check` reports the three new functions. -/
example : ∃ vs, checkCtx { caseOf treePQ filePQ false with hir := ⟨[treeOf treePRQ]⟩ } = .ok vs ∧ Increasing (vs.filterMap missingIdx) ∧
    ∀ v, v ∈ vs ↔ ∃ f i, (treeOf treePRQ).children[i]? = some f ∧ nameOf f ∉ (treeOf treePQ).children.map nameOf ∧
      ¬ (false = true ∧ f.ty = .modifier) ∧ v = ⟨.matchingFunctionMissing f i, .code c!"a.tree" f.span.start.line⟩ :=
  haveI := lawful_ascii
  C95_check pq_parse prq_parse pq_extended .default (ctx := caseOf treePQ filePQ false) pq_translate prq_translate (pq_check _)
    (caseOf_hir _ _ _) prq_hir (distinctOf_distinct prq_distinct)
    (fun s hs f hf hm => by rw [first_case hs]; exact absentOf_absent prq_absent f hf hm)

/-- A file for `treePRQ`. -/
def filePRQ : Layout := ⟨[], some c!"T", c!"contract T ", c!"\n",
  [(fnSeg c!"test_WhenP" c!"a();", c!"\n"), (fnSeg c!"test_C" c!"", c!"\n"),
    (.fn .modifier (some c!"whenQ") c!"modifier whenQ() { _; }", c!"\n"),
    (.other c!"uint x;", c!"\n"), (fnSeg c!"test_WhenQ" c!"b();", c!"\n"), (fnSeg c!"test_WhenZ" c!"", c!"\n")], c!"\n"⟩

set_option maxRecDepth 16000 in
theorem prq_check : checkCtx (caseOf treePRQ filePRQ false) = .ok [] := by cbv

/-- C96: the file for the larger tree conforms to the smaller one. -/
example : checkCtx { caseOf treePRQ filePRQ false with hir := ⟨[treeOf treePQ]⟩ } = .ok [] :=
  haveI := lawful_ascii
  C96_remove pq_parse prq_parse pq_title pq_extended .default (ctx := caseOf treePRQ filePRQ false) pq_translate prq_translate prq_check

/-! ## Several trees -/

/-- Two trees. -/
def pairFG : Str := c!"A::f\n├── when p\n│   └── it a\n└── when q\n    └── it b\n\nA::g\n└── when x\n    └── when z\n        └── it c"

/-- The first tree gets a condition the second has. -/
def pairClash : Str :=
  c!"A::f\n├── when p\n│   └── it a\n├── when x\n│   └── when w\n│       └── it d\n└── when q\n    └── it b\n\nA::g\n└── when x\n    └── when z\n        └── it c"

/-- The first tree gets a condition of its own. -/
def pairOwn : Str :=
  c!"A::f\n├── when p\n│   └── it a\n├── when v\n│   └── when w\n│       └── it d\n└── when q\n    └── it b\n\nA::g\n└── when x\n    └── when z\n        └── it c"

/-- A third tree. -/
def tripleFGH : Str := c!"A::f\n├── when p\n│   └── it a\n└── when q\n    └── it b\n\nA::g\n└── when x\n    └── when z\n        └── it c\n\nA::h\n└── when x\n    └── when w\n        └── it d"

set_option maxRecDepth 16000 in
theorem two_names : (treeOf pairFG).children.map nameOf = [(.function, c!"test_FWhenP"), (.function, c!"test_FWhenQ"), (.modifier, c!"whenX"),
    (.function, c!"test_GWhenZ")] := by cbv

/-- A file for `pairFG`. -/
def fileTwo : Layout := ⟨[], some c!"A", c!"contract A ", c!"\n",
  [(fnSeg c!"test_FWhenP" c!"a();", c!"\n"), (fnSeg c!"test_FWhenQ" c!"b();", c!"\n"),
    (.fn .modifier (some c!"whenX") c!"modifier whenX() { _; }", c!"\n"), (fnSeg c!"test_GWhenZ" c!"c();", c!"\n")], c!"\n"⟩

set_option maxRecDepth 16000 in
theorem two_check : checkCtx (caseOf pairFG fileTwo false) = .ok [] := by cbv

theorem astsOf_length {text : Str} {k : Nat} (h : (astsOf text).length = k + 1) : parse id text = .ok (astsOf text) :=
  astsOf_eq (by intro e; rw [e] at h; cases h)

/-- Whether trees are extended by others. -/
def eachExtendedOf (k : Nat) : List Ast → List Ast → Bool
  | [], [] => true
  | a :: as, b :: bs => extendedOf k (kids a) (kids b) && eachExtendedOf k as bs
  | _, _ => false

theorem eachExtendedOf_each {k : Nat} {as bs : List Ast} (h : eachExtendedOf k as bs = true) :
    Each (fun a a' => Extended (kids a) (kids a')) as bs := by
  induction as generalizing bs with
  | nil =>
    cases bs with
    | nil => exact .nil
    | cons b bs => cases h
  | cons a as ih =>
    cases bs with
    | nil => cases h
    | cons b bs =>
      simp only [eachExtendedOf, Bool.and_eq_true] at h
      exact .cons (extendedOf_extended h.1) (ih h.2)

set_option maxRecDepth 16000 in
theorem two_length : (astsOf pairFG).length = 2 := by cbv

set_option maxRecDepth 16000 in
theorem two_translate : translate id .default pairFG = .ok ⟨[treeOf pairFG]⟩ := treeOf_eq (by cbv)

set_option maxRecDepth 16000 in
theorem clash_parse : parse id pairClash = .ok (astsOf pairClash) := astsOf_length (k := 1) (by cbv)

set_option maxRecDepth 16000 in
theorem clash_translate : translate id .default pairClash = .ok ⟨[treeOf pairClash]⟩ := treeOf_eq (by cbv)

set_option maxRecDepth 16000 in
theorem clash_extended : eachExtendedOf 8 (astsOf pairFG) (astsOf pairClash) = true := by cbv

set_option maxRecDepth 16000 in
theorem clash_titles : (astsOf pairFG).map titleOf = (astsOf pairClash).map titleOf := by cbv

set_option maxRecDepth 16000 in
theorem clash_absent : absentOf (treeOf pairFG).children (treeOf pairClash).children fileTwo = true := by cbv

set_option maxRecDepth 16000 in
theorem clash_ident : (treeOf pairClash).identifier = (treeOf pairFG).identifier := by cbv

set_option maxRecDepth 16000 in
theorem clash_check : (match checkCtx { caseOf pairFG fileTwo false with hir := ⟨[treeOf pairClash]⟩ } with
    | .ok vs => vs.all (fun v => match v.kind with | .matchingFunctionMissing .. => true | _ => false)
    | _ => false) = false := by cbv

section
attribute [local irreducible] treeOf astsOf

/-- Full C97 is false: a condition is added to the first tree that the second tree has, too.  Its modifier now belongs in front of a test it used
to come behind, so `check` reports more than the functions that were added. -/
theorem C97_false : ∃ (U : Ucd) (_ : @LawfulUcd U), ¬ ∀ (order order' : HashOrder) (text text' : Str) (asts asts' : List Ast),
    parse order text = .ok asts → parse order' text' = .ok asts' → 2 ≤ asts.length → asts.map titleOf = asts'.map titleOf →
    Each (fun a a' => Extended (kids a) (kids a')) asts asts' → ∀ (cfg : Config) (n : Str) (fns fns' : List HFn) (ctx : Context),
    translate order cfg text = .ok ⟨[⟨n, fns⟩]⟩ → translate order' cfg text' = .ok ⟨[⟨n, fns'⟩]⟩ →
    ctx.hir = ⟨[⟨n, fns⟩]⟩ → checkCtx ctx = .ok [] →
    (∀ s, FirstContract ctx.pt s → ∀ f ∈ fns', nameOf f ∉ fns.map nameOf → ¬ Present s.parts f) →
    ∃ vs, checkCtx { ctx with hir := ⟨[⟨n, fns'⟩]⟩ } = .ok vs ∧ ∀ v ∈ vs, ∃ f i, v.kind = .matchingFunctionMissing f i := by
  refine ⟨asciiUcd, lawful_ascii, fun h => ?_⟩
  obtain ⟨vs, h1, h2⟩ := h id id pairFG pairClash _ _ (astsOf_length two_length) clash_parse (by rw [two_length]; exact Nat.le_refl _) clash_titles
    (eachExtendedOf_each clash_extended) .default (treeOf pairFG).identifier (treeOf pairFG).children (treeOf pairClash).children
    (caseOf pairFG fileTwo false) two_translate (by rw [← clash_ident]; exact clash_translate) (caseOf_hir _ _ _) two_check
    (fun s hs f hf hm => by rw [first_case hs]; exact absentOf_absent clash_absent f hf hm)
  have := clash_check
  rw [← clash_ident] at h1
  rw [show (⟨[treeOf pairClash]⟩ : HRoot) = ⟨[⟨(treeOf pairClash).identifier, (treeOf pairClash).children⟩]⟩ from rfl, h1] at this
  revert this
  simp only [Bool.eq_false_iff]
  intro hn
  refine hn (List.all_eq_true.2 fun v hv => ?_)
  obtain ⟨f, i, e⟩ := h2 v hv
  rw [e]

end

set_option maxRecDepth 16000 in
theorem own_parse : parse id pairOwn = .ok (astsOf pairOwn) := astsOf_length (k := 1) (by cbv)

set_option maxRecDepth 16000 in
theorem own_translate : translate id .default pairOwn = .ok ⟨[treeOf pairOwn]⟩ := treeOf_eq (by cbv)

set_option maxRecDepth 16000 in
theorem own_extended : eachExtendedOf 8 (astsOf pairFG) (astsOf pairOwn) = true := by cbv

set_option maxRecDepth 16000 in
theorem own_titles : (astsOf pairFG).map titleOf = (astsOf pairOwn).map titleOf := by cbv

set_option maxRecDepth 16000 in
theorem own_fresh : ((prefixedFns false ((astsOf pairFG).zip [c!"f", c!"g"])).all fun f =>
    decide (((prefixedFns false ((astsOf pairOwn).zip [c!"f", c!"g"])).map HFn.identifier).count f.identifier =
      ((prefixedFns false ((astsOf pairFG).zip [c!"f", c!"g"])).map HFn.identifier).count f.identifier)) = true := by cbv

set_option maxRecDepth 16000 in
theorem two_titles : (astsOf pairFG).map titleOf = [c!"A::f", c!"A::g"] := by cbv

theorem two_parts {n : Str} {fs : List Str} (h : Each (fun a f => Splits (titleOf a) n f) (astsOf pairFG) fs) : fs = [c!"f", c!"g"] := by
  have ht := two_titles
  generalize astsOf pairFG = as at h ht
  obtain ⟨a, as, rfl, t1, ht⟩ := List.map_eq_cons_iff.1 ht
  obtain ⟨b, as, rfl, t2, ht⟩ := List.map_eq_cons_iff.1 ht
  rw [List.map_eq_nil_iff] at ht
  subst ht
  match h with
  | .cons h1 (.cons h2 .nil) =>
    rw [t1] at h1
    rw [t2] at h2
    have e1 := splitOnceSep_some.2 h1
    have e2 := splitOnceSep_some.2 h2
    have k1 : splitOnceSep c!"A::f" = some (c!"A", c!"f") := by decide +kernel
    have k2 : splitOnceSep c!"A::g" = some (c!"A", c!"g") := by decide +kernel
    rw [k1] at e1
    rw [k2] at e2
    simp only [Option.some.injEq, Prod.mk.injEq] at e1 e2
    rw [← e1.2, ← e2.2]

section
attribute [local irreducible] treeOf astsOf

/-- C97: a condition of its own is added to the first tree. -/
example : ∃ n fns fns', (⟨[treeOf pairFG]⟩ : HRoot) = ⟨[⟨n, fns⟩]⟩ ∧ (⟨[treeOf pairOwn]⟩ : HRoot) = ⟨[⟨n, fns'⟩]⟩ ∧
    (fns.map nameOf).Sublist (fns'.map nameOf) := by
  haveI := lawful_ascii
  obtain ⟨n, fns, fns', h1, h2, h3, _⟩ := C97_several_partial (astsOf_length two_length) own_parse (by rw [two_length]; exact Nat.le_refl _) own_titles
    (eachExtendedOf_each own_extended) .default two_translate own_translate (by
      intro n fs hs f hf
      rw [two_parts hs] at hf ⊢
      exact of_decide_eq_true (List.all_eq_true.1 own_fresh f hf))
  exact ⟨n, fns, fns', h1, h2, h3⟩

end

set_option maxRecDepth 16000 in
theorem three_length : (astsOf tripleFGH).length = 3 := by cbv

set_option maxRecDepth 16000 in
theorem three_more : astsOf tripleFGH = astsOf pairFG ++ (astsOf tripleFGH).drop 2 := by cbv

set_option maxRecDepth 16000 in
theorem three_translate : translate id .default tripleFGH = .ok ⟨[treeOf tripleFGH]⟩ := treeOf_eq (by cbv)

set_option maxRecDepth 16000 in
theorem three_names : (treeOf tripleFGH).children.map nameOf = [(.function, c!"test_FWhenP"), (.function, c!"test_FWhenQ"), (.modifier, c!"whenX"),
    (.function, c!"test_GWhenZ"), (.function, c!"test_HWhenW")] := by cbv

/-- C98: the test of the third tree, whose modifier is already there, is reported to be missing. -/
example : ∃ n fns new, (⟨[treeOf pairFG]⟩ : HRoot) = ⟨[⟨n, fns⟩]⟩ ∧ (⟨[treeOf tripleFGH]⟩ : HRoot) = ⟨[⟨n, fns ++ new⟩]⟩ ∧
    ∃ vs, checkCtx { caseOf pairFG fileTwo false with hir := ⟨[treeOf tripleFGH]⟩ } = .ok vs ∧
      ∀ v, v ∈ vs ↔ ∃ f i, new[i]? = some f ∧ ¬ (false = true ∧ f.ty = .modifier) ∧
        v = ⟨.matchingFunctionMissing f (fns.length + i), .code c!"a.tree" f.span.start.line⟩ := by
  haveI := lawful_ascii
  have h3 := astsOf_length three_length
  rw [three_more] at h3
  obtain ⟨n, fns, new, h1, h2, h4, _⟩ := C98_append (astsOf_length two_length) h3 (by rw [two_length]; exact Nat.le_refl _) .default two_translate
    three_translate
  have e1 : (treeOf pairFG).children = fns := by
    simp only [HRoot.mk.injEq, List.cons.injEq, and_true] at h1
    rw [h1]
  have e2 : (treeOf tripleFGH).children = fns ++ new := by
    simp only [HRoot.mk.injEq, List.cons.injEq, and_true] at h2
    rw [h2]
  have hn := three_names
  rw [e2, List.map_append, ← e1, two_names] at hn
  simp only [List.cons_append, List.nil_append, List.cons.injEq, true_and] at hn
  obtain ⟨vs, h5, _, h6⟩ := h4 (caseOf pairFG fileTwo false) rfl two_check (by
    rintro s hs f hf ⟨p, hp, hm⟩
    rw [first_case hs] at hp
    have hf' : nameOf f = (.function, c!"test_HWhenW") := by
      have := List.mem_map_of_mem (f := nameOf) hf
      rw [hn] at this
      simpa using this
    simp only [nameOf, Prod.mk.injEq] at hf'
    have : fileTwo.contract.parts.any (fun p => match p with | .fn k => decide (k.name = some c!"test_HWhenW") | .other .. => false) = false := by
      decide +kernel
    rw [List.any_eq_false] at this
    refine this p hp ?_
    cases p with
    | fn k => simp only [Matches] at hm; simp [hm.1, hf'.2]
    | other => exact hm.elim)
  exact ⟨n, fns, new, h1, h2, vs, h5, h6⟩

end Bulloak
