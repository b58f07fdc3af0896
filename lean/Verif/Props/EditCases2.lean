import Verif.Props.Edit3
import Verif.Props.SolFileCases
/-! # Rearranging trees and retitling conditions: concrete cases meeting the hypotheses -/

namespace Bulloak
open Spec
set_option linter.unusedSectionVars false

/-- Whether branches can be brought into the order of others, by bringing the first or the second of the others to the front at each step. -/
def rearrangedOf : Nat → List Ast → List Ast → Bool
  | 0, l, l' => l.isEmpty && l'.isEmpty
  | k + 1, l, l' => match l, l' with
    | [], [] => true
    | a :: l, a' :: b :: r => (same k a a' && rearrangedOf k l (b :: r)) || (same k a b && rearrangedOf k l (a' :: r))
    | a :: l, a' :: r => same k a a' && rearrangedOf k l r
    | _, _ => false
where
  same : Nat → Ast → Ast → Bool
  | 0, _, _ => false
  | k + 1, a, a' => match a, a' with
    | .action _ t ds, .action _ t' ds' => decide (t = t') && (ds.map titleOf).isPerm (ds'.map titleOf)
    | .condition _ t ks, .condition _ t' ks' => decide (t = t') && decide (firstAction ks' = firstAction ks) && rearrangedOf k ks ks'
    | _, _ => false

theorem rearrangedOf_rearranged (k : Nat) : (∀ l l', rearrangedOf k l l' = true → Rearranged l l') ∧
    ∀ a a' l l', rearrangedOf.same k a a' = true → Rearranged l l' → Rearranged (a :: l) (a' :: l') := by
  induction k with
  | zero =>
    refine ⟨?_, fun _ _ _ _ h => by cases h⟩
    intro l l' h
    simp only [rearrangedOf, Bool.and_eq_true, List.isEmpty_iff] at h
    rw [h.1, h.2]; exact .done
  | succ k ih =>
    obtain ⟨ih1, ih2⟩ := ih
    constructor
    · intro l l' h
      unfold rearrangedOf at h
      split at h
      · exact .done
      · simp only [Bool.or_eq_true, Bool.and_eq_true] at h
        rcases h with ⟨h1, h2⟩ | ⟨h1, h2⟩
        · exact ih2 _ _ _ _ h1 (ih1 _ _ h2)
        · exact .trans (ih2 _ _ _ _ h1 (ih1 _ _ h2)) .swap
      · simp only [Bool.and_eq_true] at h
        exact ih2 _ _ _ _ h.1 (ih1 _ _ h.2)
      · cases h
    · intro a a' l l' h hl
      unfold rearrangedOf.same at h
      split at h
      · simp only [Bool.and_eq_true, decide_eq_true_eq, List.isPerm_iff] at h
        obtain ⟨rfl, h⟩ := h
        exact .action h hl
      · simp only [Bool.and_eq_true, decide_eq_true_eq] at h
        obtain ⟨⟨rfl, h1⟩, h2⟩ := h
        exact .condition (ih1 _ _ h2) h1 hl
      · cases h

/-- Whether branches are the same. -/
def resitedOf : Nat → List Ast → List Ast → Bool
  | 0, l, l' => l.isEmpty && l'.isEmpty
  | k + 1, l, l' => match l, l' with
    | [], [] => true
    | .action _ t ds :: l, .action _ t' ds' :: l' => decide (t = t') && decide (ds'.map titleOf = ds.map titleOf) && resitedOf k l l'
    | .condition _ t ks :: l, .condition _ t' ks' :: l' => decide (t = t') && resitedOf k ks ks' && resitedOf k l l'
    | _, _ => false

theorem resitedOf_resited {k : Nat} {l l' : List Ast} (h : resitedOf k l l' = true) : Resited l l' := by
  induction k generalizing l l' with
  | zero =>
    simp only [resitedOf, Bool.and_eq_true, List.isEmpty_iff] at h
    rw [h.1, h.2]; exact .done
  | succ k ih =>
    unfold resitedOf at h
    split at h
    · exact .done
    · simp only [Bool.and_eq_true, decide_eq_true_eq] at h
      obtain ⟨⟨rfl, h1⟩, h2⟩ := h
      exact .action h1 (ih h2)
    · simp only [Bool.and_eq_true, decide_eq_true_eq] at h
      obtain ⟨⟨rfl, h1⟩, h2⟩ := h
      exact .condition (ih h1) (ih h2)
    · cases h

/-- The branches of the condition whose title differs. -/
def retitledOf (t t' : Str) : Nat → List Ast → List Ast → Option (List Ast)
  | 0, _, _ => none
  | k + 1, l, l' => match l, l' with
    | .condition s u ks :: l, .condition s' u' ks' :: l' =>
      if u = t ∧ u' = t' ∧ resitedOf k ks ks' = true ∧ resitedOf k l l' = true then some ks
      else if u = u' ∧ resitedOf k l l' = true ∧ (retitledOf t t' k ks ks').isSome then retitledOf t t' k ks ks'
      else if resitedOf k [.condition s u ks] [.condition s' u' ks'] = true then retitledOf t t' k l l' else none
    | a :: l, a' :: l' => if resitedOf k [a] [a'] = true then retitledOf t t' k l l' else none
    | _, _ => none

theorem retitledOf_retitled {t t' : Str} {k : Nat} {l l' ks : List Ast} (h : retitledOf t t' k l l' = some ks) : Retitled t t' ks l l' := by
  induction k generalizing l l' with
  | zero => cases h
  | succ k ih =>
    unfold retitledOf at h
    split at h
    · split at h
      · rename_i h1
        obtain ⟨rfl, rfl, h1, h2⟩ := h1
        obtain rfl := Option.some.inj h
        exact .here (resitedOf_resited h1) (resitedOf_resited h2)
      · split at h
        · rename_i h1
          obtain ⟨rfl, h1, _⟩ := h1
          exact .inside (ih h) (resitedOf_resited h1)
        · split at h
          · rename_i h1
            exact .later (resitedOf_resited h1) (ih h)
          · cases h
    · split at h
      · rename_i h1
        exact .later (resitedOf_resited h1) (ih h)
      · cases h
    · cases h

attribute [local instance] asciiUcd

/-- `treePRQ` rearranged: the first two top-level branches swapped, and the branches of the last one. -/
def treeQRP : Str :=
  c!"T\n├── it c\n├── when p\n│   ├── it a\n│   └── it reverts\n└── when q\n    ├── when z\n    │   └── it d\n    └── it b\n        └── as stated"

/-- `treePRQ` with another title for the last top-level condition. -/
def treeRetitled : Str := c!"T\n├── when p\n│   ├── it a\n│   └── it reverts\n├── it c\n└── when new\n    ├── it b\n    │   └── as stated\n    └── when z\n        └── it d"

set_option maxRecDepth 16000 in
theorem qrp_parse : parse id treeQRP = .ok [onlyOf treeQRP] := onlyOf_eq (by cbv)

set_option maxRecDepth 16000 in
theorem qrp_rearranged : Rearranged (kids (onlyOf treePRQ)) (kids (onlyOf treeQRP)) := (rearrangedOf_rearranged 12).1 _ _ (by cbv)

set_option maxRecDepth 16000 in
theorem qrp_title : titleOf (onlyOf treeQRP) = titleOf (onlyOf treePRQ) := by cbv

set_option maxRecDepth 16000 in
theorem qrp_translate : translate id .default treeQRP = .ok ⟨[treeOf treeQRP]⟩ := treeOf_eq (by cbv)

set_option maxRecDepth 16000 in
theorem qrp_names : (treeOf treeQRP).children.map nameOf = [(.function, c!"test_C"), (.function, c!"test_WhenP"),
    (.modifier, c!"whenQ"), (.function, c!"test_WhenQ"), (.function, c!"test_WhenZ")] := by cbv

set_option maxRecDepth 16000 in
theorem qrp_check : (match checkCtx { caseOf treePRQ filePRQ false with hir := ⟨[treeOf treeQRP]⟩ } with | .ok vs => vs.length | _ => 9) = 1 := by cbv

set_option maxRecDepth 16000 in
theorem qrp_distinct : distinctOf (treeOf treeQRP).children = true := by cbv

set_option maxRecDepth 16000 in
theorem qrp_readable : (treeOf treeQRP).children.all readableOf = true := by cbv

set_option maxRecDepth 16000 in
theorem qrp_ascii : (treeOf treeQRP).children.all (fun f => asciiOf (emitFunction f)) = true := by cbv

set_option maxRecDepth 16000 in
theorem qrp_mixed : mixedOf (treeOf treeQRP).children filePRQ = true := by cbv

set_option maxRecDepth 16000 in
theorem qrp_declared : declaredOf (treeOf treeQRP).children filePRQ = true := by cbv

set_option maxRecDepth 16000 in
theorem qrp_triple : noTripleOf (treeOf treeQRP).children filePRQ = true := by cbv

set_option maxRecDepth 16000 in
theorem qrp_blocked : blockedOf (treeOf treeQRP).children filePRQ = false := by cbv

set_option maxRecDepth 16000 in
theorem re_parse : parse id treeRetitled = .ok [onlyOf treeRetitled] := onlyOf_eq (by cbv)

/-- The branches of the retitled condition. -/
def underQ : List Ast := (retitledOf c!"when q" c!"when new" 8 (kids (onlyOf treePRQ)) (kids (onlyOf treeRetitled))).getD []

set_option maxRecDepth 16000 in
theorem re_some : (retitledOf c!"when q" c!"when new" 8 (kids (onlyOf treePRQ)) (kids (onlyOf treeRetitled))).isSome = true := by cbv

theorem re_retitled : Retitled c!"when q" c!"when new" underQ (kids (onlyOf treePRQ)) (kids (onlyOf treeRetitled)) := by
  apply retitledOf_retitled (k := 8)
  unfold underQ
  cases h : retitledOf c!"when q" c!"when new" 8 (kids (onlyOf treePRQ)) (kids (onlyOf treeRetitled)) with
  | none => have := re_some; rw [h] at this; cases this
  | some k => rfl

set_option maxRecDepth 16000 in
theorem re_own : ownNames c!"when new" underQ = [(.modifier, c!"whenNew"), (.function, c!"test_WhenNew")] := by cbv

set_option maxRecDepth 16000 in
theorem re_translate : translate id .default treeRetitled = .ok ⟨[treeOf treeRetitled]⟩ := treeOf_eq (by cbv)

set_option maxRecDepth 16000 in
theorem re_ident : (treeOf treeRetitled).identifier = (treeOf treePRQ).identifier := by cbv

set_option maxRecDepth 16000 in
theorem re_distinct : distinctOf (treeOf treeRetitled).children = true := by cbv

set_option maxRecDepth 16000 in
theorem re_readable : (treeOf treeRetitled).children.all readableOf = true := by cbv

set_option maxRecDepth 16000 in
theorem re_absent : absentOf (treeOf treePRQ).children (treeOf treeRetitled).children filePRQ = true := by cbv

set_option maxRecDepth 16000 in
theorem prq_old : (treeOf treePRQ).children.map nameOf = [(.function, c!"test_WhenP"), (.function, c!"test_C"),
    (.modifier, c!"whenQ"), (.function, c!"test_WhenQ"), (.function, c!"test_WhenZ")] := by cbv

section
attribute [local irreducible] treeOf astsOf onlyOf underQ

/-- C107: the same functions in another order. -/
example : ∃ fns fns', translate id .default treePRQ = .ok ⟨[⟨titleOf (onlyOf treePRQ), fns⟩]⟩ ∧
    translate id .default treeQRP = .ok ⟨[⟨titleOf (onlyOf treeQRP), fns'⟩]⟩ ∧ PermBy SameUpToOrder fns fns' :=
  haveI := lawful_ascii
  C107_functions prq_parse qrp_parse qrp_rearranged .default

/-- C107: one function is out of order, and nothing else is reported. -/
example : ∃ v g i j, checkCtx { caseOf treePRQ filePRQ false with hir := ⟨[treeOf treeQRP]⟩ } = .ok [v] ∧ v.kind = .functionOrderMismatch g i j := by
  haveI := lawful_ascii
  have h := qrp_check
  cases hv : checkCtx { caseOf treePRQ filePRQ false with hir := ⟨[treeOf treeQRP]⟩ } with
  | ok vs =>
    rw [hv] at h
    have := C107_check prq_parse qrp_parse qrp_title qrp_rearranged .default (ctx := caseOf treePRQ filePRQ false) prq_translate qrp_translate prq_check hv
    match vs, h with
    | [v], _ =>
      obtain ⟨g, i, j, e⟩ := this v (List.mem_singleton_self v)
      exact ⟨v, g, i, j, rfl, e⟩
  | err e => exact nomatch e
  | panic => rw [hv] at h; cases h

/-- C107: the fix moves a part; then nothing is reported. -/
example : ∃ P, Reader P anyFile ∧ ∃ (L' : Layout) (u : SolUnit) (k : Nat), fixContext P { caseOf treePRQ filePRQ false with hir := ⟨[treeOf treeQRP]⟩ } =
      .ok ({ caseOf treePRQ filePRQ false with hir := ⟨[treeOf treeQRP]⟩, src := L'.text, pt := u }, k) ∧
    (L'.segs.map Prod.fst).Perm (filePRQ.segs.map Prod.fst) ∧
    checkCtx { caseOf treePRQ filePRQ false with hir := ⟨[treeOf treeQRP]⟩, src := L'.text, pt := u } = .ok [] := by
  haveI := lawful_ascii
  obtain ⟨P, hP, hPt⟩ := reader_exists anyFile
  have hfit : filePRQ.Fits anyFile := fitsOf_fits (by decide +kernel)
  obtain ⟨L', u, k, h1, _, _, h3, h4⟩ := C107_fix anyFile_generated hP prq_parse qrp_parse qrp_title qrp_rearranged
    (ctx := caseOf treePRQ filePRQ false) prq_translate (n := (treeOf treeQRP).identifier) (fns' := (treeOf treeQRP).children) qrp_translate
    prq_check rfl (distinctOf_distinct qrp_distinct) (fun f hf => (readableOf_legible (List.all_eq_true.1 qrp_readable f hf)).2.2)
    (fun f hf => asciiOf_ascii (List.all_eq_true.1 qrp_ascii f hf)) hfit (caseOf_src _ _ _) (hPt _ hfit) (by decide)
    (asciiOf_ascii (by decide +kernel)) (mixedOf_mixed qrp_mixed) (declaredOf_declared qrp_declared) (noTripleOf_triple qrp_triple)
  refine ⟨P, hP, L', u, k, h1, h3, h4.2 fun hb => ?_⟩
  rw [← blockedOf_iff, qrp_blocked] at hb
  cases hb

/-- C108: the names of the other functions are kept. -/
example : ∃ fns fns', translate id .default treePRQ = .ok ⟨[⟨titleOf (onlyOf treePRQ), fns⟩]⟩ ∧
    translate id .default treeRetitled = .ok ⟨[⟨titleOf (onlyOf treeRetitled), fns'⟩]⟩ ∧ Each (Retouched c!"when q" c!"when new") fns fns' ∧
      ∃ A B, fns.map nameOf = A ++ ownNames c!"when q" underQ ++ B ∧ fns'.map nameOf = A ++ ownNames c!"when new" underQ ++ B :=
  haveI := lawful_ascii
  C108_functions prq_parse re_parse re_retitled .default

theorem re_hir : (⟨[treeOf treeRetitled]⟩ : HRoot) = ⟨[⟨(treeOf treePRQ).identifier, (treeOf treeRetitled).children⟩]⟩ := by
  rw [← re_ident]

theorem re_new : ∀ f ∈ (treeOf treeRetitled).children, nameOf f ∈ ownNames c!"when new" underQ → ¬ Present filePRQ.parts f := by
  intro f hf hm
  refine absentOf_absent re_absent f hf ?_
  rw [re_own] at hm
  rw [prq_old]
  intro h
  simp only [List.mem_cons, List.not_mem_nil, or_false] at hm h
  rcases hm with hm | hm <;> rw [hm] at h <;> revert h <;> decide

/-- C108: the modifier and the test of the condition are reported to be missing. -/
example : ∃ vs, checkCtx { caseOf treePRQ filePRQ false with hir := ⟨[treeOf treeRetitled]⟩ } = .ok vs ∧ Increasing (vs.filterMap missingIdx) ∧
    ∀ v, v ∈ vs ↔ ∃ f i, (treeOf treeRetitled).children[i]? = some f ∧ nameOf f ∈ ownNames c!"when new" underQ ∧
      ¬ (false = true ∧ f.ty = .modifier) ∧ v = ⟨.matchingFunctionMissing f i, .code c!"a.tree" f.span.start.line⟩ :=
  haveI := lawful_ascii
  C108_check prq_parse re_parse re_retitled .default (ctx := caseOf treePRQ filePRQ false) prq_translate re_translate prq_check
    (caseOf_hir _ _ _) re_hir (distinctOf_distinct re_distinct) (fun s hs f hf hm => by rw [first_case hs]; exact re_new f hf hm)

/-- C108: they are added. -/
example : ∃ P, Reader P anyFile ∧ ∃ (L' : Layout) (u : SolUnit) (k : Nat), fixContext P { caseOf treePRQ filePRQ false with hir := ⟨[treeOf treeRetitled]⟩ } =
      .ok ({ caseOf treePRQ filePRQ false with hir := ⟨[treeOf treeRetitled]⟩, src := L'.text, pt := u }, k) ∧
    (filePRQ.segs.map Prod.fst).Sublist (L'.segs.map Prod.fst) ∧
    checkCtx { caseOf treePRQ filePRQ false with hir := ⟨[treeOf treeRetitled]⟩, src := L'.text, pt := u } = .ok [] := by
  haveI := lawful_ascii
  obtain ⟨P, hP, hPt⟩ := reader_exists anyFile
  have hfit : filePRQ.Fits anyFile := fitsOf_fits (by decide +kernel)
  obtain ⟨L', u, k, h1, _, _, _, _, _, _, h2, _, h3⟩ := C108_fix anyFile_generated hP prq_parse re_parse re_retitled .default
    (ctx := caseOf treePRQ filePRQ false) prq_translate re_translate prq_check (caseOf_hir _ _ _) re_hir (distinctOf_distinct re_distinct)
    (fun f hf => (readableOf_legible (List.all_eq_true.1 re_readable f hf)).2.2) hfit (caseOf_src _ _ _) (hPt _ hfit) (by decide) re_new (fun h => by cases h.1)
  exact ⟨P, hP, L', u, k, h1, h2, h3⟩

end
end Bulloak
