import Verif.Props.Swap
import Verif.Props.RecaseCases
/-! # Exchanging `when` and `given`: concrete cases -/

namespace Bulloak
open Spec
attribute [local instance] asciiUcd

local instance swapDec (w : Str) : Decidable (IsConditionWord w) := by unfold IsConditionWord IsKeyword; infer_instance
instance swapAnyDec (w w' : Str) : Decidable (AnyOpener w w') := by unfold AnyOpener; infer_instance
instance swapAlwaysDec (k k' w w' : Str) : Decidable (Always k k' w w') := by unfold Always; infer_instance

/-- A decision procedure for `Exchanged`. -/
def exchangedB (k : Str → Str → Bool) : Bool → List Seen → List Seen → Bool
  | _, [], [] => true
  | a, ⟨f, .word w, _⟩ :: l, ⟨f', .word w', _⟩ :: l' =>
    f = f' && (if a && decide (IsConditionWord w) then decide (IsConditionWord w') && k w w' else decide (w = w')) && exchangedB k false l l'
  | _, ⟨f, p, c⟩ :: l, ⟨f', p', c'⟩ :: l' => f = f' && p = p' && c = c' && p.isBranch && exchangedB k true l l'
  | _, _, _ => false

theorem exchangedB_sound {K : Str → Str → Prop} {k : Str → Str → Bool} (hk : ∀ w w', k w w' = true → K w w') : ∀ {l l' : List Seen} {a : Bool},
    exchangedB k a l l' = true → Exchanged K a l l' := by
  intro l
  induction l with
  | nil =>
    intro l' a h
    cases l' with
    | nil => exact .nil
    | cons x l' => obtain ⟨f, p, c⟩ := x; cases p <;> simp [exchangedB] at h
  | cons x l ih =>
    intro l' a h
    obtain ⟨f, p, c⟩ := x
    cases l' with
    | nil => cases p <;> simp [exchangedB] at h
    | cons x' l' =>
      obtain ⟨f', p', c'⟩ := x'
      cases p <;> cases p' <;> simp only [exchangedB, Bool.and_eq_true, decide_eq_true_eq, Piece.isBranch, reduceCtorEq, false_and, and_false, Bool.false_eq_true] at h
      case tee.tee => obtain ⟨⟨⟨⟨rfl, _⟩, rfl⟩, _⟩, h⟩ := h; exact .glyph rfl (ih h)
      case corner.corner => obtain ⟨⟨⟨⟨rfl, _⟩, rfl⟩, _⟩, h⟩ := h; exact .glyph rfl (ih h)
      case word.word w w' =>
        obtain ⟨⟨rfl, h1⟩, h2⟩ := h
        split at h1
        · rename_i hc
          simp only [Bool.and_eq_true, decide_eq_true_eq] at hc h1
          obtain ⟨rfl, hc⟩ := hc
          exact .opener hc h1.1 (hk _ _ h1.2) (ih h2)
        · rename_i hc
          simp only [decide_eq_true_eq] at h1
          subst h1
          refine .word (fun ha hw => hc ?_) (ih h2)
          simp [ha, hw]

theorem exchangedText_of (K : Str → Str → Prop) [∀ w w', Decidable (K w w')] {b b' : Str} (h1 : b.length < 200) (h2 : b'.length < 200)
    (h : exchangedB (fun w w' => decide (K w w')) false (reading [] true (lexF 200 b)) (reading [] true (lexF 200 b')) = true) : ExchangedText K b b' :=
  ⟨lexF 200 b, lexF 200 b', lexF_spec 200 (by omega), lexF_spec 200 (by omega), exchangedB_sound (fun _ _ h => of_decide_eq_true h) h⟩

def swapMixed : Str := c!"T\n├── given a\n│   ├── it b\n│   └── When c\n│       └── it should revert\n└── it works"
def swapWhen : Str := c!"T\n├── when a\n│   ├── it b\n│   │   └── as is\n│   └── when c\n│       └── it should revert\n└── it works"
def swapGiven : Str := c!"T\n├── given a\n│   ├── it b\n│   │   └── as is\n│   └── given c\n│       └── it should revert\n└── it works"

theorem trees_mixed : Trees (swapMixed ++ c!"\n") [swapMixed] := trees_rec rfl rfl (by decide +kernel)
theorem trees_when : Trees (swapWhen ++ c!"\n") [swapWhen] := trees_rec rfl rfl (by decide +kernel)
theorem trees_given : Trees (swapGiven ++ c!"\n") [swapGiven] := trees_rec rfl rfl (by decide +kernel)

theorem low_mixed : ExchangedText AnyOpener recLow swapMixed := exchangedText_of _ (by decide +kernel) (by decide +kernel) (by decide +kernel)
theorem when_given : ExchangedText (Always c!"when" c!"given") swapWhen swapGiven := exchangedText_of _ (by decide +kernel) (by decide +kernel) (by decide +kernel)

theorem rec_translated {text : Str} {l : List Str} (h : recNames text = some l) : ∃ r, translate id .default text = .ok r := by
  unfold recNames at h
  split at h
  · rename_i e; exact ⟨_, e⟩
  · cases h

set_option maxRecDepth 16000 in
theorem names_mixed : recNames (swapMixed ++ c!"\n") = some [c!"givenA", c!"test_GivenA", c!"test_RevertWhen_C", c!"test_Works"] := by cbv
set_option maxRecDepth 16000 in
theorem names_when : recNames (swapWhen ++ c!"\n") = some [c!"whenA", c!"test_WhenA", c!"test_RevertWhen_C", c!"test_Works"] := by cbv
set_option maxRecDepth 16000 in
theorem names_given : recNames (swapGiven ++ c!"\n") = some [c!"givenA", c!"test_GivenA", c!"test_RevertGiven_C", c!"test_Works"] := by cbv

/-- C127 applies to a tree in which `when` and `given` change places. -/
example : ∃ n fns fns', translate id .default (recLow ++ c!"\n") = .ok ⟨[⟨n, fns⟩]⟩ ∧ translate id .default (swapMixed ++ c!"\n") = .ok ⟨[⟨n, fns'⟩]⟩ ∧
    Each (OpenersOnly AnyOpener) fns fns' := by
  haveI := lawful_ascii
  obtain ⟨r, hr⟩ := rec_translated names_low
  obtain ⟨n, fns, rfl, ⟨fns', h1, h2⟩ | ⟨es, h1, _⟩⟩ := C127_functions (order := id) (fun _ => .refl _) trees_low trees_mixed low_mixed hr
  · exact ⟨n, fns, fns', hr, h1, h2⟩
  · obtain ⟨r', hr'⟩ := rec_translated names_mixed
    rw [h1] at hr'
    cases hr'

/-- C127 applies to a tree in which all `when` become `given`. -/
example : ∃ n fns fns', translate id .default (swapWhen ++ c!"\n") = .ok ⟨[⟨n, fns⟩]⟩ ∧ translate id .default (swapGiven ++ c!"\n") = .ok ⟨[⟨n, fns'⟩]⟩ ∧
    Each (OpenersOnly (Always c!"when" c!"given")) fns fns' := by
  haveI := lawful_ascii
  obtain ⟨r, hr⟩ := rec_translated names_when
  obtain ⟨n, fns, fns', rfl, h1, h2⟩ := C127_throughout_functions (order := id) (fun _ => .refl _) (by decide) trees_when trees_given when_given hr
  exact ⟨n, fns, fns', hr, h1, h2⟩

example : ∃ asts, parse id (swapGiven ++ c!"\n") = .ok asts := by
  haveI := lawful_ascii
  exact (C127_throughout (order := id) (k := c!"when") (fun _ => .refl _) (by decide) (by decide) trees_when trees_given (.cons when_given .nil)).1 (rec_parsed names_when)

def swapTwo : Str := c!"T\n├── when a\n│   └── it b\n└── given a\n    └── it works"
def swapTwice : Str := c!"T\n├── when a\n│   └── it b\n└── when a\n    └── it works"

theorem trees_two : Trees (swapTwo ++ c!"\n") [swapTwo] := trees_rec rfl rfl (by decide +kernel)
theorem trees_twice : Trees (swapTwice ++ c!"\n") [swapTwice] := trees_rec rfl rfl (by decide +kernel)
theorem two_twice : ExchangedText AnyOpener swapTwo swapTwice := exchangedText_of _ (by decide +kernel) (by decide +kernel) (by decide +kernel)

set_option maxRecDepth 16000 in
theorem names_two : recNames (swapTwo ++ c!"\n") = some [c!"test_WhenA", c!"test_GivenA"] := by cbv
set_option maxRecDepth 16000 in
theorem names_twice : recNames (swapTwice ++ c!"\n") = none := by cbv

/-- The exception in C127 is needed: `when a` next to `given a` is accepted, `when a` next to `when a` is not. -/
theorem C127_coincide : ∃ (U : Ucd) (_ : @LawfulUcd U), ¬ ∀ (order : HashOrder) (cfg : Config) (text text' b b' : Str), (∀ l, (order l).Perm l) →
    Trees text [b] → Trees text' [b'] → ExchangedText AnyOpener b b' → (∃ r, translate order cfg text = .ok r) → ∃ r, translate order cfg text' = .ok r := by
  refine ⟨asciiUcd, lawful_ascii, fun h => ?_⟩
  haveI := lawful_ascii
  obtain ⟨r, hr⟩ := h id .default _ _ _ _ (fun _ => .refl _) trees_two trees_twice two_twice (rec_translated names_two)
  obtain ⟨n, fns, rfl, _⟩ := translate_ok hr
  have := names_twice
  simp [recNames, hr] at this

def swapBad : Str := c!"T\n├── when a\n│   └── when\n└── it works"
def swapBad' : Str := c!"T\n├── given a\n│   └── Given\n└── it works"

theorem bad_bad : ExchangedText AnyOpener swapBad swapBad' := exchangedText_of _ (by decide +kernel) (by decide +kernel) (by decide +kernel)

/-- C127 applies to a malformed tree. -/
example : (∃ e, parseOne id swapBad' = .err (.tokenizer swapBad' e)) ∨ ∃ e, parseOne id swapBad' = .err (.parser swapBad' e) := by
  haveI := lawful_ascii
  refine (C127_malformed (order := id) bad_bad).1 (.inr ?_)
  have h : (match parseOne id swapBad with | .err (.parser b _) => decide (b = swapBad) | _ => false) = true := by decide +kernel
  split at h
  · rename_i b e he
    have := of_decide_eq_true h
    subst this
    exact ⟨e, he⟩
  · cases h

end Bulloak
