import Verif.Props.AlikeTests
import Verif.Props.EditCases3
/-! # Trees with the same code: concrete cases -/

namespace Bulloak
open Spec
set_option linter.unusedSectionVars false

attribute [local instance] asciiUcd

/-- A checker for `Lookalike`. -/
def lookalikeOf : Nat → List Ast → List Ast → Bool
  | _, [], [] => true
  | 0, _, _ => false
  | k + 1, .condition _ t ks :: l, .condition _ t' ks' :: l' =>
    decide (camel t = camel t') && decide (actionsIn ks = actionsIn ks') && lookalikeOf k ks ks' && lookalikeOf k l l'
  | k + 1, .condition s t ks :: l, a' :: l' => lookalikeOf k (.condition s t ks :: l) l' && !a'.isCondition
  | _ + 1, .condition .. :: _, [] => false
  | k + 1, a :: l, l' => lookalikeOf k l l' && !a.isCondition
  | k + 1, [], a' :: l' => lookalikeOf k [] l' && !a'.isCondition

theorem lookalikeOf_sound {k : Nat} : ∀ {l l' : List Ast}, lookalikeOf k l l' = true → Lookalike l l' := by
  induction k with
  | zero =>
    intro l l' h
    cases l <;> cases l' <;> first | exact .done | (simp [lookalikeOf] at h)
  | succ k ih =>
    intro l l' h
    cases l with
    | nil =>
      cases l' with
      | nil => exact .done
      | cons a' l' =>
        simp only [lookalikeOf, Bool.and_eq_true, Bool.not_eq_true'] at h
        exact .right h.2 (ih h.1)
    | cons a l =>
      cases a with
      | condition s t ks =>
        cases l' with
        | nil => simp [lookalikeOf] at h
        | cons a' l' =>
          cases a' with
          | condition s' t' ks' =>
            simp only [lookalikeOf, Bool.and_eq_true, decide_eq_true_eq] at h
            exact .condition h.1.1.1 h.1.1.2 (ih h.1.2) (ih h.2)
          | action => simp only [lookalikeOf, Bool.and_eq_true, Bool.not_eq_true'] at h; exact .right rfl (ih h.1)
          | description => simp only [lookalikeOf, Bool.and_eq_true, Bool.not_eq_true'] at h; exact .right rfl (ih h.1)
          | root => simp only [lookalikeOf, Bool.and_eq_true, Bool.not_eq_true'] at h; exact .right rfl (ih h.1)
      | action => simp only [lookalikeOf, Bool.and_eq_true, Bool.not_eq_true'] at h; exact .left rfl (ih h.1)
      | description => simp only [lookalikeOf, Bool.and_eq_true, Bool.not_eq_true'] at h; exact .left rfl (ih h.1)
      | root => simp only [lookalikeOf, Bool.and_eq_true, Bool.not_eq_true'] at h; exact .left rfl (ih h.1)

/-- A checker for `LookalikeTop`. -/
def lookalikeTopOf (k : Nat) : List Ast → List Ast → Bool
  | [], [] => true
  | .action _ t ds :: l, .action _ t' ds' :: l' => decide (t = t') && decide (ds.map titleOf = ds'.map titleOf) && lookalikeTopOf k l l'
  | .condition _ t ks :: l, .condition _ t' ks' :: l' => decide (camel t = camel t') && decide (actionsIn ks = actionsIn ks') && lookalikeOf k ks ks' && lookalikeTopOf k l l'
  | .action _ t ds :: l, .condition s' t' ks :: l' =>
    decide (topName t = testName (.condition s' t' ks)) && decide ([(t, ds.map titleOf)] = actionsIn ks) && !ks.any Ast.isCondition && lookalikeTopOf k l l'
  | _, _ => false

theorem lookalikeTopOf_sound {k : Nat} : ∀ {l l' : List Ast}, lookalikeTopOf k l l' = true → LookalikeTop l l' := by
  intro l
  induction l with
  | nil =>
    intro l' h
    cases l' with
    | nil => exact .done
    | cons => simp [lookalikeTopOf] at h
  | cons a l ih =>
    intro l' h
    cases l' with
    | nil => cases a <;> simp [lookalikeTopOf] at h
    | cons a' l' =>
      cases a <;> cases a' <;> simp only [lookalikeTopOf, Bool.and_eq_true, decide_eq_true_eq, Bool.not_eq_true', Bool.false_eq_true] at h
      · exact .condition h.1.1.1 h.1.1.2 (lookalikeOf_sound h.1.2) (ih h.2)
      · exact .mixed h.1.1.1 h.1.1.2 h.1.2 (ih h.2)
      · obtain ⟨⟨rfl, h2⟩, h3⟩ := h; exact .action h2 (ih h3)

/-- An action in front of a nested condition. -/
def actionFirst : Str := c!"Ab\n└── when a b\n    ├── it c\n    └── when d\n        └── it e\n"

/-- The action behind the condition, whose title is written differently. -/
def actionLast : Str := c!"Ab\n└── when aB\n    ├── when d\n    │   └── it e\n    └── it c\n"

/-- An action that starts like a condition. -/
def whenAction : Str := c!"Ab\n└── it when x\n"

/-- A condition with this action. -/
def whenCondition : Str := c!"Ab\n└── when x\n    └── it when x\n"

set_option maxRecDepth 16000 in
theorem actionFirst_parse : parse id actionFirst = .ok [onlyOf actionFirst] := onlyOf_eq (by cbv)

set_option maxRecDepth 16000 in
theorem actionLast_parse : parse id actionLast = .ok [onlyOf actionLast] := onlyOf_eq (by cbv)

set_option maxRecDepth 16000 in
theorem whenAction_parse : parse id whenAction = .ok [onlyOf whenAction] := onlyOf_eq (by cbv)

set_option maxRecDepth 16000 in
theorem whenCondition_parse : parse id whenCondition = .ok [onlyOf whenCondition] := onlyOf_eq (by cbv)

set_option maxRecDepth 16000 in
theorem order_lookalike : lookalikeTopOf 8 (kids (onlyOf actionFirst)) (kids (onlyOf actionLast)) = true := by cbv

set_option maxRecDepth 16000 in
theorem when_lookalike : lookalikeTopOf 8 (kids (onlyOf whenAction)) (kids (onlyOf whenCondition)) = true := by cbv

set_option maxRecDepth 16000 in
theorem order_titles : titleOf (onlyOf actionFirst) = titleOf (onlyOf actionLast) := by cbv

set_option maxRecDepth 16000 in
theorem when_titles : titleOf (onlyOf whenAction) = titleOf (onlyOf whenCondition) := by cbv

set_option maxRecDepth 16000 in
theorem first_titles : (kids (onlyOf actionFirst)).map titleOf = [c!"when a b"] := by cbv

set_option maxRecDepth 16000 in
theorem when_kind : (kids (onlyOf whenAction)).map Ast.isAction = [true] := by cbv

set_option maxRecDepth 16000 in
theorem first_kind : (kids (onlyOf actionFirst)).map Ast.isAction = [false] := by cbv

set_option maxRecDepth 16000 in
theorem first_nested : (kids (onlyOf actionFirst)).all (fun a => (kids a).any Ast.isCondition) = true := by cbv

section
attribute [local irreducible] treeOf astsOf onlyOf

theorem id_perm : ∀ l, (((id : HashOrder)) l).Perm l := fun l => List.Perm.refl l

/-- C111: these two trees give the same file. -/
example {cfg : Config} (hq : '"' ∉ cfg.solidityVersion) (hn : '\n' ∉ cfg.solidityVersion) :
    scaffoldSource id cfg actionFirst = scaffoldSource id cfg actionLast := by
  haveI := lawful_ascii
  exact (C111_text_all id_perm id_perm actionFirst_parse actionLast_parse hq hn).2 ⟨by rw [order_titles], lookalikeTopOf_sound order_lookalike⟩

/-- C111: and these two, although one has a condition and the other one has not. -/
example {cfg : Config} (hq : '"' ∉ cfg.solidityVersion) (hn : '\n' ∉ cfg.solidityVersion) :
    scaffoldSource id cfg whenAction = scaffoldSource id cfg whenCondition := by
  haveI := lawful_ascii
  exact (C111_text_all id_perm id_perm whenAction_parse whenCondition_parse hq hn).2 ⟨by rw [when_titles], lookalikeTopOf_sound when_lookalike⟩

/-- C111: a tree with a nested condition and one without do not. -/
example {cfg : Config} (hq : '"' ∉ cfg.solidityVersion) (hn : '\n' ∉ cfg.solidityVersion) :
    scaffoldSource id cfg whenAction ≠ scaffoldSource id cfg actionFirst := by
  haveI := lawful_ascii
  intro h
  have hl := ((C111_text_all id_perm id_perm whenAction_parse actionFirst_parse hq hn).1 h).2
  have h1 := when_kind
  have h2 := first_kind
  have h3 := first_nested
  revert hl h1 h2 h3
  generalize kids (onlyOf whenAction) = l
  generalize kids (onlyOf actionFirst) = l'
  intro hl h1 h2 h3
  cases hl with
  | done => cases h1
  | action => simp [Ast.isAction] at h2
  | condition => simp [Ast.isAction] at h1
  | mixed' => simp [Ast.isAction] at h1
  | mixed e1 e2 e3 => simp only [List.all_cons, Bool.and_eq_true, kids] at h3; rw [e3] at h3; cases h3.1

/-- C111: and so do the names and functions. -/
example {cfg : Config} {n n' : Str} {fns fns' : List HFn} (ht : translate id cfg actionFirst = .ok ⟨[⟨n, fns⟩]⟩) (ht' : translate id cfg actionLast = .ok ⟨[⟨n', fns'⟩]⟩) :
    n = n' ∧ fns.map codeOf = fns'.map codeOf := by
  haveI := lawful_ascii
  exact (C111_functions id_perm id_perm actionFirst_parse actionLast_parse cfg ht ht').2 ⟨order_titles, lookalikeTopOf_sound order_lookalike⟩

/-- C111: and so do the names and tests. -/
example {cfg : Config} {n n' : Str} {fns fns' : List HFn} (ht : translate id cfg actionFirst = .ok ⟨[⟨n, fns⟩]⟩) (ht' : translate id cfg actionLast = .ok ⟨[⟨n', fns'⟩]⟩) :
    (fns.filter (fun f => f.ty = .function)).map codeOf = (fns'.filter (fun f => f.ty = .function)).map codeOf := by
  haveI := lawful_ascii
  exact ((C111_tests id_perm id_perm actionFirst_parse actionLast_parse cfg ht ht').2 ⟨order_titles, lookalikeTopOf_sound order_lookalike⟩).2

end
end Bulloak
