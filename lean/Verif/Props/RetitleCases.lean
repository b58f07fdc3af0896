import Verif.Props.Retitle
import Verif.Props.RewordCases
/-! # Renaming roots, other contracts: concrete cases -/

namespace Bulloak
open Spec
set_option linter.unusedSectionVars false

attribute [local instance] asciiUcd

/-- `treeABC` with another root. -/
def treeVault : Str := c!"Vault\n├── it a\n├── it b\n└── it c"

/-- A file for `treeABC` or `treeVault`. -/
def fileVault (name : Str) : Layout := ⟨c!"// tests\n", some name, c!"contract " ++ name ++ c!" is Base ", c!"\n",
  [(.other c!"uint256 x;", c!"\n"), (fnSeg c!"test_A" c!" f(); ", c!"\n"), (fnSeg c!"test_B" c!"", c!" // B\n"), (fnSeg c!"test_C" c!"", c!"\n")], c!"\ncontract Other {}"⟩

/-- `wordsNew` for another contract. -/
def movedNew : Str := c!"Bank::f\n├── IT works?\n└── when a\n    ├── when b\n    │   ├── it d\n    │   └── it e\n    └── It should REVERT!\n\nBank::g\n└── when b\n    ├── it should revert now\n    └── it pays\n"

set_option maxRecDepth 16000 in
theorem abc_one : (astsOf treeABC).length = 1 := by cbv

set_option maxRecDepth 16000 in
theorem vault_one : (astsOf treeVault).length = 1 := by cbv

set_option maxRecDepth 16000 in
theorem vault_titles : (titleOf (onlyOf treeABC), titleOf (onlyOf treeVault)) = (c!"T", c!"Vault") := by cbv

set_option maxRecDepth 16000 in
theorem vault_top : rewordedTopOf 8 (kids (onlyOf treeABC)) (kids (onlyOf treeVault)) = true := by cbv

set_option maxRecDepth 16000 in
theorem vault_old : translate id .default treeABC = .ok ⟨[treeOf treeABC]⟩ := treeOf_eq (by cbv)

set_option maxRecDepth 16000 in
theorem vault_new : translate id .default treeVault = .ok ⟨[treeOf treeVault]⟩ := treeOf_eq (by cbv)

set_option maxRecDepth 16000 in
theorem vault_silent : checkCtx (caseOf treeABC (fileVault c!"T") false) = .ok [] := by cbv

set_option maxRecDepth 16000 in
theorem vault_report : checkCtx (caseOf treeVault (fileVault c!"T") false) =
    .ok [⟨.contractNameNotMatches c!"Vault" c!"T", .code c!"a.t.sol" 2⟩] := by cbv

set_option maxRecDepth 16000 in
theorem moved_two : (astsOf movedNew).length = 2 := by cbv

set_option maxRecDepth 16000 in
theorem words_titles : (astsOf wordsOld).map titleOf = [c!"A::f", c!"A::g"] := by cbv

set_option maxRecDepth 16000 in
theorem moved_titles : (astsOf movedNew).map titleOf = [c!"Bank::f", c!"Bank::g"] := by cbv

set_option maxRecDepth 16000 in
theorem moved_top : ((astsOf wordsOld).zip (astsOf movedNew)).all (fun p => rewordedTopOf 8 (kids p.1) (kids p.2)) = true := by cbv

theorem words_moved : RootsRenamed c!"A" c!"Bank" (astsOf wordsOld) (astsOf movedNew) := by
  have h1 := words_titles
  have h2 := moved_titles
  have h3 := moved_top
  have h4 := words_two
  have h5 := moved_two
  generalize astsOf wordsOld = l at *
  generalize astsOf movedNew = l' at *
  match l, l', h4, h5 with
  | [a, b], [a', b'], _, _ =>
    simp only [List.map_cons, List.map_nil, List.cons.injEq, and_true] at h1 h2
    simp only [List.zip_cons_cons, List.zip_nil_right, List.all_cons, List.all_nil, Bool.and_true, Bool.and_eq_true] at h3
    refine .many (by simp) (fun h => by have := h 'A' (by simp); revert this; decide) (fun h => by have := h 'B' (by simp); revert this; decide) ?_
    refine .cons ⟨⟨c!"f", ?_, ?_⟩, rewordedTopOf_sound h3.1⟩ (.cons ⟨⟨c!"g", ?_, ?_⟩, rewordedTopOf_sound h3.2⟩ .nil)
    · rw [h1.1]; exact ⟨rfl, by decide⟩
    · rw [h2.1]; exact ⟨rfl, by decide⟩
    · rw [h1.2]; exact ⟨rfl, by decide⟩
    · rw [h2.2]; exact ⟨rfl, by decide⟩

section
attribute [local irreducible] treeOf astsOf onlyOf

theorem abc_vault : RootsRenamed c!"T" c!"Vault" [onlyOf treeABC] [onlyOf treeVault] :=
  .one (congrArg Prod.fst vault_titles) (congrArg Prod.snd vault_titles) (rewordedTopOf_sound vault_top)

/-- C114: the contract `A` of two trees becomes `Bank`. -/
example : ∃ fns fns', translate id .default wordsOld = .ok ⟨[⟨c!"A", fns⟩]⟩ ∧ translate id .default movedNew = .ok ⟨[⟨c!"Bank", fns'⟩]⟩ ∧ Each BodyCommentsOnly fns fns' := by
  haveI := lawful_ascii
  exact C114_functions (asts_parse words_two) (asts_parse moved_two) words_moved .default

/-- C114: a single violation. -/
example : ∃ line, offsetToLine (fileVault c!"T").text (fileVault c!"T").contract.start = .ok line ∧
    checkCtx (caseOf treeVault (fileVault c!"T") false) = .ok [⟨.contractNameNotMatches (sanitize c!"Vault") (sanitize c!"T"), .code c!"a.t.sol" line⟩] := by
  haveI := lawful_ascii
  rcases C114_check (onlyOf_eq abc_one) (onlyOf_eq vault_one) abc_vault (cfg := .default) (ctx := caseOf treeABC (fileVault c!"T") false) (hir' := ⟨[treeOf treeVault]⟩)
    vault_old vault_new vault_silent (s := (fileVault c!"T").contract) (caseOf_pt _ _ _) vault_report with ⟨_, h⟩ | ⟨_, _, line, h1, h2⟩
  · cases h
  · exact ⟨line, h1, vault_report.trans (congrArg _ h2)⟩

/-- C114: the name is replaced, the rest of the file stays. -/
example : ∃ P, Reader P anyFile ∧ ∃ u, fixContext P (caseOf treeVault (fileVault c!"T") false) =
    .ok ({ caseOf treeVault (fileVault c!"T") false with src := (fileVault c!"Vault").text, pt := u }, 1) ∧
    checkCtx { caseOf treeVault (fileVault c!"T") false with src := (fileVault c!"Vault").text, pt := u } = .ok [] := by
  haveI := lawful_ascii
  obtain ⟨P, hP, hPt⟩ := reader_exists anyFile
  have hfit : (fileVault c!"T").Fits anyFile := fitsOf_fits (by decide +kernel)
  obtain ⟨u, h1, _, h3⟩ := C114_fix hP (onlyOf_eq abc_one) (onlyOf_eq vault_one) abc_vault (cfg := .default) (ctx := caseOf treeABC (fileVault c!"T") false)
    (hir' := ⟨[treeOf treeVault]⟩) vault_old vault_new vault_silent (L := fileVault c!"T") (L1 := fileVault c!"Vault") hfit (fitsOf_fits (by decide +kernel)) rfl (hPt _ hfit)
    (by
      rw [show sanitize c!"Vault" = c!"Vault" by decide +kernel]
      exact Renamed.other (pre := []) (post := c!" is Base ") rfl (by decide) rfl (once_of_char (d := 'T') (by decide) (by decide +kernel)))
    (by decide) vault_report
  exact ⟨P, hP, u, h1, h3⟩

end

/-! ## C115 -/

/-- A helper contract, followed by a contract with all tests of `treeABC`. -/
def fileHelper (name : Str) : Layout := ⟨[], some name, c!"contract " ++ name ++ c!" ", c!"\n",
  [(.other c!"uint256 x;", c!"\n")], c!"\ncontract T { function test_A() {} function test_B() {} function test_C() {} }\n"⟩

/-- The contract behind the helper, as `solang` reads it. -/
def behindHelper : SolContract := ⟨some c!"T", 31, 105,
  [.fn ⟨.function, some c!"test_A", 44, 64⟩, .fn ⟨.function, some c!"test_B", 65, 85⟩, .fn ⟨.function, some c!"test_C", 86, 106⟩]⟩

set_option maxRecDepth 16000 in
theorem helper_reports : (match checkCtx { caseOf treeABC (fileHelper c!"Helper") false with pt := [.contract (fileHelper c!"Helper").contract, .contract behindHelper] } with
    | .ok vs => vs.length | _ => 0) = 4 := by cbv

set_option maxRecDepth 16000 in
theorem helper_alone : checkCtx { caseOf treeABC (fileHelper c!"Helper") false with pt := [.contract behindHelper] } = .ok [] := by cbv

set_option maxRecDepth 16000 in
theorem helper_name : sanitize (treeOf treeABC).identifier = c!"T" := by cbv

set_option maxRecDepth 16000 in
theorem helper_readable : (treeOf treeABC).children.all readableOf = true := by cbv

set_option maxRecDepth 16000 in
theorem helper_distinct : distinctOf (treeOf treeABC).children = true := by cbv

set_option maxRecDepth 16000 in
theorem helper_none : (treeOf treeABC).children.all (fun f => !decide (Present (fileHelper c!"Helper").parts f)) = true := by cbv

set_option maxRecDepth 16000 in
theorem helper_ok : (checkCtx (caseOf treeABC (fileHelper c!"Helper") false)).isOk = true := by cbv

section
attribute [local irreducible] treeOf astsOf onlyOf

/-- Full C115 is false: a contract with the name of the tree and all its functions in order is not found behind another contract. -/
theorem C115_anywhere_false : ¬ ∀ (ctx : Context) (n : Str) (fns : List HFn) (s : SolContract), ctx.hir = ⟨[⟨n, fns⟩]⟩ → .contract s ∈ ctx.pt → s.name = some (sanitize n) →
    (∀ f ∈ fns, Present s.parts f) → InOrder fns s.parts → checkCtx ctx = .ok [] := by
  intro h
  have hr := helper_reports
  obtain ⟨s, h1, h2, h3, h4⟩ := (C37_silent_iff (ctx := { caseOf treeABC (fileHelper c!"Helper") false with pt := [.contract behindHelper] }) (caseOf_hir treeABC (fileHelper c!"Helper") false)).1 helper_alone
  have hs : behindHelper = s := Option.some.inj ((findContract_iff _ _).2 h1)
  subst hs
  rw [h { caseOf treeABC (fileHelper c!"Helper") false with pt := [.contract (fileHelper c!"Helper").contract, .contract behindHelper] } _ _ behindHelper
    (caseOf_hir treeABC (fileHelper c!"Helper") false) (by simp) (congrArg some (h2 _ rfl)) (fun f hf => (h3 f hf).resolve_right (fun e => by cases e.1)) h4] at hr
  cases hr

/-- Full C115 is false for fixing: the helper gets the tests, and the file has two contracts `T` then. -/
theorem C115_fix_false : ∃ P, Reader P anyFile ∧ ∃ (L' : Layout) (u : SolUnit) (k : Nat),
    fixContext P (caseOf treeABC (fileHelper c!"Helper") false) = .ok ({ caseOf treeABC (fileHelper c!"Helper") false with src := L'.text, pt := u }, k) ∧
    L'.name = some c!"T" ∧ L'.rest = c!"\ncontract T { function test_A() {} function test_B() {} function test_C() {} }\n" ∧
    (∀ f ∈ (treeOf treeABC).children, Present L'.parts f) ∧ Seg.other c!"uint256 x;" ∈ L'.segs.map Prod.fst := by
  haveI := lawful_ascii
  obtain ⟨P, hP, hPt⟩ := reader_exists anyFile
  have hfit : (fileHelper c!"Helper").Fits anyFile := fitsOf_fits (by decide +kernel)
  obtain ⟨vs, hv⟩ : ∃ vs, checkCtx (caseOf treeABC (fileHelper c!"Helper") false) = .ok vs := by
    have := helper_ok
    cases h : checkCtx (caseOf treeABC (fileHelper c!"Helper") false) with
    | ok vs => exact ⟨vs, rfl⟩
    | err e => rw [h] at this; cases this
    | panic => rw [h] at this; cases this
  obtain ⟨L', u, k, h1, h2, h3, _, h5, h6⟩ := C115_fix_first anyFile_generated hP (n := (treeOf treeABC).identifier) (ctx := caseOf treeABC (fileHelper c!"Helper") false)
    (caseOf_hir _ _ _) (fun f hf => (readableOf_legible (List.all_eq_true.1 helper_readable f hf)).2.2) hfit (L1 := fileHelper c!"T") (fitsOf_fits (by decide +kernel))
    (caseOf_src _ _ _) (hPt _ hfit) (old := c!"Helper") rfl
    (by
      rw [helper_name]
      exact Renamed.other (pre := []) (post := c!" ") rfl (by decide) rfl (once_of_char (d := 'H') (by decide) (by decide +kernel)))
    (by decide) rfl (distinctOf_distinct helper_distinct) (fun f hf => by simpa using List.all_eq_true.1 helper_none f hf) hv
  refine ⟨P, hP, L', u, k, h1, ?_, h3, h5, h6.subset (List.mem_cons_self ..)⟩
  rw [h2, helper_name]

/-- C115: with the contract first, the helper behind it does not matter. -/
example : checkCtx { caseOf treeABC (fileHelper c!"Helper") false with pt := [.other, .contract behindHelper, .contract (fileHelper c!"Helper").contract] } = .ok [] :=
  (C115_first_partial (ctx := { caseOf treeABC (fileHelper c!"Helper") false with pt := [.contract behindHelper] }) ⟨0, [], rfl⟩ ⟨1, _, rfl⟩).trans helper_alone

end
end Bulloak
