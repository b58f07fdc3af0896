import Verif.Props.Reword
import Verif.Props.SolFileCases
import Verif.Props.EditCases3
/-! # Rewording actions: concrete cases -/

namespace Bulloak
open Spec
set_option linter.unusedSectionVars false

attribute [local instance] asciiUcd

/-- A checker for `Reworded`. -/
def rewordedOf : Nat → List Ast → List Ast → Bool
  | _, [], [] => true
  | 0, _, _ => false
  | k + 1, .condition _ t ks :: l, .condition _ t' ks' :: l' =>
    decide (t = t') && decide (leadsWith ks = leadsWith ks') && rewordedOf k ks ks' && rewordedOf k l l'
  | k + 1, .condition s t ks :: l, a' :: l' => rewordedOf k (.condition s t ks :: l) l' && !a'.isCondition
  | _ + 1, .condition .. :: _, [] => false
  | k + 1, a :: l, l' => rewordedOf k l l' && !a.isCondition
  | k + 1, [], a' :: l' => rewordedOf k [] l' && !a'.isCondition

theorem rewordedOf_sound {k : Nat} : ∀ {l l' : List Ast}, rewordedOf k l l' = true → Reworded l l' := by
  induction k with
  | zero =>
    intro l l' h
    cases l <;> cases l' <;> first | exact .done | (simp [rewordedOf] at h)
  | succ k ih =>
    intro l l' h
    cases l with
    | nil =>
      cases l' with
      | nil => exact .done
      | cons a' l' =>
        simp only [rewordedOf, Bool.and_eq_true, Bool.not_eq_true'] at h
        exact .right h.2 (ih h.1)
    | cons a l =>
      cases a with
      | condition s t ks =>
        cases l' with
        | nil => simp [rewordedOf] at h
        | cons a' l' =>
          cases a' with
          | condition s' t' ks' =>
            simp only [rewordedOf, Bool.and_eq_true, decide_eq_true_eq] at h
            obtain ⟨⟨⟨rfl, h2⟩, h3⟩, h4⟩ := h
            exact .condition h2 (ih h3) (ih h4)
          | action => simp only [rewordedOf, Bool.and_eq_true, Bool.not_eq_true'] at h; exact .right rfl (ih h.1)
          | description => simp only [rewordedOf, Bool.and_eq_true, Bool.not_eq_true'] at h; exact .right rfl (ih h.1)
          | root => simp only [rewordedOf, Bool.and_eq_true, Bool.not_eq_true'] at h; exact .right rfl (ih h.1)
      | action => simp only [rewordedOf, Bool.and_eq_true, Bool.not_eq_true'] at h; exact .left rfl (ih h.1)
      | description => simp only [rewordedOf, Bool.and_eq_true, Bool.not_eq_true'] at h; exact .left rfl (ih h.1)
      | root => simp only [rewordedOf, Bool.and_eq_true, Bool.not_eq_true'] at h; exact .left rfl (ih h.1)

/-- A checker for `RewordedTop`. -/
def rewordedTopOf (k : Nat) : List Ast → List Ast → Bool
  | [], [] => true
  | .action _ t _ :: l, .action _ t' _ :: l' => decide (topName t = topName t') && rewordedTopOf k l l'
  | .condition _ t ks :: l, .condition _ t' ks' :: l' => decide (t = t') && decide (leadsWith ks = leadsWith ks') && rewordedOf k ks ks' && rewordedTopOf k l l'
  | _, _ => false

theorem rewordedTopOf_sound {k : Nat} : ∀ {l l' : List Ast}, rewordedTopOf k l l' = true → RewordedTop l l' := by
  intro l
  induction l with
  | nil =>
    intro l' h
    cases l' with
    | nil => exact .done
    | cons => simp [rewordedTopOf] at h
  | cons a l ih =>
    intro l' h
    cases l' with
    | nil => cases a <;> simp [rewordedTopOf] at h
    | cons a' l' =>
      cases a <;> cases a' <;> simp only [rewordedTopOf, Bool.and_eq_true, decide_eq_true_eq, Bool.false_eq_true] at h
      · obtain ⟨⟨⟨rfl, h2⟩, h3⟩, h4⟩ := h
        exact .condition h2 (rewordedOf_sound h3) (ih h4)
      · exact .action h.1 (ih h.2)

/-- A checker for lists of trees. -/
def rewordedAllOf (k : Nat) : List Ast → List Ast → Bool
  | [], [] => true
  | a :: l, a' :: l' => decide (titleOf a = titleOf a') && rewordedTopOf k (kids a) (kids a') && rewordedAllOf k l l'
  | _, _ => false

theorem rewordedAllOf_sound {k : Nat} : ∀ {l l' : List Ast}, rewordedAllOf k l l' = true →
    Each (fun a a' => titleOf a = titleOf a' ∧ RewordedTop (kids a) (kids a')) l l'
  | [], [], _ => .nil
  | [], _ :: _, h => by simp [rewordedAllOf] at h
  | _ :: _, [], h => by simp [rewordedAllOf] at h
  | a :: l, a' :: l', h => by
    simp only [rewordedAllOf, Bool.and_eq_true, decide_eq_true_eq] at h
    exact .cons ⟨h.1.1, rewordedTopOf_sound h.1.2⟩ (rewordedAllOf_sound h.2)

/-- Two trees. -/
def wordsOld : Str := c!"A::f\n├── it works\n└── when a\n    ├── it should revert\n    └── when b\n        └── it c\n\nA::g\n└── when b\n    └── it pays\n        └── a lot\n"

/-- The same conditions; the actions are reworded, added and moved, and a description is gone. -/
def wordsNew : Str := c!"A::f\n├── IT works?\n└── when a\n    ├── when b\n    │   ├── it d\n    │   └── it e\n    └── It should REVERT!\n\nA::g\n└── when b\n    ├── it should revert now\n    └── it pays\n"

set_option maxRecDepth 16000 in
theorem words_two : (astsOf wordsOld).length = 2 := by cbv

set_option maxRecDepth 16000 in
theorem words_two' : (astsOf wordsNew).length = 2 := by cbv

set_option maxRecDepth 16000 in
theorem words_all : rewordedAllOf 8 (astsOf wordsOld) (astsOf wordsNew) = true := by cbv

theorem asts_parse {text : Str} (h : (astsOf text).length = 2) : parse id text = .ok (astsOf text) := astsOf_eq (by intro e; rw [e] at h; cases h)

theorem words_reworded : RewordedText id wordsOld wordsNew :=
  ⟨_, _, asts_parse words_two, asts_parse words_two', rewordedAllOf_sound words_all⟩

set_option maxRecDepth 16000 in
theorem words_names : (treeOf wordsOld).children.map nameOf = [(.function, c!"test_FWorks"), (.modifier, c!"whenA"), (.function, c!"test_FRevertWhen_A"),
    (.function, c!"test_FWhenB"), (.function, c!"test_GWhenB")] := by cbv

set_option maxRecDepth 16000 in
theorem words_translate : translate id .default wordsOld = .ok ⟨[treeOf wordsOld]⟩ := treeOf_eq (by cbv)

set_option maxRecDepth 16000 in
theorem words_translate' : translate id .default wordsNew = .ok ⟨[treeOf wordsNew]⟩ := treeOf_eq (by cbv)

/-- A file with a single test of the trees. -/
def wordsDisk (tree : Str) : Fs :=
  ⟨fun p => if p.name = c!"a.tree" then .text tree else if p.name = c!"a.t.sol" then .text c!"contract A { function test_GWhenB() external {} }" else .absent, fun _ => false⟩

/-- The file with the trees. -/
def wordsPath : FPath := ⟨c!"x/", c!"a.tree"⟩

/-- A parser that finds a single test. -/
def wordsEnv : Env :=
  ⟨some, fun _ => some [.contract ⟨some c!"A", 0, 49, [.fn ⟨.function, some c!"test_GWhenB", 13, 46⟩]⟩], fun c => some c.src, id⟩

section
attribute [local irreducible] treeOf astsOf onlyOf

/-- C113: the two files have contracts with the same functions. -/
example : ∃ n fns fns', translate id .default wordsOld = .ok ⟨[⟨n, fns⟩]⟩ ∧ translate id .default wordsNew = .ok ⟨[⟨n, fns'⟩]⟩ ∧ Each BodyCommentsOnly fns fns' := by
  haveI := lawful_ascii
  rcases C113_functions words_reworded .default with h | ⟨_, _, h, _⟩
  · exact h
  · rw [words_translate] at h; cases h

/-- C113: whatever the Solidity file, the reports agree. -/
example (src : Str) (u : SolUnit) (skip : Bool) :
    EchoReport (checkCtx ⟨c!"a.tree", ⟨[treeOf wordsOld]⟩, c!"a.t.sol", src, u, skip⟩) (checkCtx ⟨c!"a.tree", ⟨[treeOf wordsNew]⟩, c!"a.t.sol", src, u, skip⟩) := by
  haveI := lawful_ascii
  exact C113_check words_reworded (ctx := ⟨c!"a.tree", ⟨[treeOf wordsOld]⟩, c!"a.t.sol", src, u, skip⟩) words_translate words_translate'

/-- C113: the exit codes agree. -/
theorem words_exit : (checkRun wordsEnv ⟨[wordsPath], false, false, false⟩ (wordsDisk wordsNew)).exit =
    (checkRun wordsEnv ⟨[wordsPath], false, false, false⟩ (wordsDisk wordsOld)).exit := by
  haveI := lawful_ascii
  refine C113_exit rfl ?_ ?_
  · intro t ht p hp
    rw [(solOf_iff _ _).1 hp, List.mem_singleton.1 ht]
    decide +kernel
  · intro t ht
    rw [List.mem_singleton.1 ht]
    exact .inr ⟨wordsOld, wordsNew, rfl, rfl, words_reworded⟩

end

set_option maxRecDepth 16000 in
/-- C113: indeed both files lack tests. -/
example : (checkRun wordsEnv ⟨[wordsPath], false, false, false⟩ (wordsDisk wordsOld)).exit = .code 1 := by cbv

/-! ## Telling trees apart -/

/-- Two conditions. -/
def apartAB : Str := c!"T\n├── when a\n│   └── it x\n└── when b\n    └── it y\n"

/-- The other way round. -/
def apartBA : Str := c!"T\n├── when b\n│   └── it y\n└── when a\n    └── it x\n"

set_option maxRecDepth 16000 in
theorem ab_translate : translate id .default apartAB = .ok ⟨[treeOf apartAB]⟩ := treeOf_eq (by cbv)

set_option maxRecDepth 16000 in
theorem ba_translate : translate id .default apartBA = .ok ⟨[treeOf apartBA]⟩ := treeOf_eq (by cbv)

set_option maxRecDepth 16000 in
theorem ab_readable : (treeOf apartAB).children.all readableOf = true := by cbv

set_option maxRecDepth 16000 in
theorem ba_readable : (treeOf apartBA).children.all readableOf = true := by cbv

set_option maxRecDepth 16000 in
theorem ab_name : sanitize (treeOf apartAB).identifier = c!"T" := by cbv

set_option maxRecDepth 16000 in
theorem ba_name : sanitize (treeOf apartBA).identifier = c!"T" := by cbv

set_option maxRecDepth 16000 in
theorem ab_distinct : distinctOf (treeOf apartAB).children = true := by cbv

set_option maxRecDepth 16000 in
theorem ba_distinct : distinctOf (treeOf apartBA).children = true := by cbv

set_option maxRecDepth 16000 in
theorem ab_names : (treeOf apartAB).children.map nameOf = [(.function, c!"test_WhenA"), (.function, c!"test_WhenB")] := by cbv

set_option maxRecDepth 16000 in
theorem ba_names : (treeOf apartBA).children.map nameOf = [(.function, c!"test_WhenB"), (.function, c!"test_WhenA")] := by cbv

section
attribute [local irreducible] treeOf astsOf onlyOf

theorem apart_legible {text : Str} (ht : translate id .default text = .ok ⟨[treeOf text]⟩) (hn : sanitize (treeOf text).identifier = c!"T")
    (hr : (treeOf text).children.all readableOf = true) : Legible id .default text := by
  intro n fns h
  have e : treeOf text = ⟨n, fns⟩ := by simpa using Res.ok.inj (ht.symm.trans h)
  rw [e] at hn hr
  rw [hn]
  exact ⟨identOf_ident (by decide), by decide, fun f hf => (readableOf_legible (List.all_eq_true.1 hr f hf)).1,
    fun f hf => (readableOf_legible (List.all_eq_true.1 hr f hf)).2.1⟩

/-- C113: with a parser that reads valid files correctly, one of the two files written for these trees does not pass the check against the other tree. -/
example {P : SolParser} (hP : Reader P anyFile) {out out' : Str} (hy : Yields ⟨some, P, fun c => some c.src, id⟩ .default apartAB out)
    (hy' : Yields ⟨some, P, fun c => some c.src, id⟩ .default apartBA out') {u u' : SolUnit} (hu : P out = some u) (hu' : P out' = some u')
    (h : checkCtx ⟨c!"a.tree", ⟨[treeOf apartBA]⟩, c!"a.t.sol", out, u, false⟩ = .ok []) :
    checkCtx ⟨c!"a.tree", ⟨[treeOf apartAB]⟩, c!"a.t.sol", out', u', false⟩ ≠ .ok [] := by
  haveI := lawful_ascii
  intro h'
  have := (C113_told_apart (env := ⟨some, P, fun c => some c.src, id⟩) anyFile_generated hP (keepsFiles_some _) rfl (by unfold UsualVersion; decide) trivial
    (apart_legible ab_translate ab_name ab_readable) (apart_legible ba_translate ba_name ba_readable) hy hy' (n := (treeOf apartAB).identifier)
    (n' := (treeOf apartBA).identifier) (fns := (treeOf apartAB).children) (fns' := (treeOf apartBA).children) ab_translate ba_translate
    (distinctOf_distinct ab_distinct) (distinctOf_distinct ba_distinct) rfl rfl rfl rfl hu hu' h h').2
  rw [ab_names, ba_names] at this
  exact absurd this (by decide)

end
end Bulloak
