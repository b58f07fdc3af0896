import Verif.Props.Recase
import Verif.Props.Layout
import Verif.Props.RewordCases
/-! # Keywords in upper and lower case: concrete cases -/

namespace Bulloak
open Spec
attribute [local instance] asciiUcd

/-- A decision procedure for `Recased`. -/
def recasedB (k : Str → Str → Bool) : Bool → List Piece → List Piece → Bool
  | _, [], [] => true
  | a, .word w :: ps, .word w' :: ps' => (w = w' || (a && k w w')) && recasedB k false ps ps'
  | a, p :: ps, p' :: ps' => p = p' && recasedB k (a || p.isBranch) ps ps'
  | _, _, _ => false

theorem recasedB_sound {K : Str → Str → Prop} {k : Str → Str → Bool} (hk : ∀ w w', k w w' = true → K w w') : ∀ {ps ps' : List Piece} {a : Bool},
    recasedB k a ps ps' = true → Recased K a ps ps' := by
  intro ps
  induction ps with
  | nil =>
    intro ps' a h
    cases ps' with
    | nil => exact .nil
    | cons p ps' => cases p <;> simp [recasedB] at h
  | cons p ps ih =>
    intro ps' a h
    cases ps' with
    | nil => cases p <;> simp [recasedB] at h
    | cons p' ps' =>
      cases p <;> cases p' <;> simp only [recasedB, Bool.and_eq_true, Bool.or_eq_true, decide_eq_true_eq, Piece.isBranch, Bool.or_false, Bool.or_true, reduceCtorEq, false_and, Piece.skip.injEq, Piece.brk.injEq, Piece.comment.injEq] at h
      case skip.skip => obtain ⟨rfl, h⟩ := h; exact .gap rfl (ih h)
      case brk.brk => obtain ⟨rfl, h⟩ := h; exact .gap rfl (ih h)
      case comment.comment => obtain ⟨rfl, h⟩ := h; exact .gap rfl (ih h)
      case tee.tee => exact .glyph rfl (ih h.2)
      case corner.corner => exact .glyph rfl (ih h.2)
      case word.word =>
        obtain ⟨h1, h2⟩ := h
        rcases h1 with rfl | ⟨rfl, h1⟩
        · exact .word (ih h2)
        · exact .keyword (hk _ _ h1) (ih h2)

instance (w w' : Str) : Decidable (FirstLetter w w') := by unfold FirstLetter IsKeyword; infer_instance
instance (w w' : Str) : Decidable (AnyIt w w') := by unfold AnyIt IsKeyword; infer_instance
instance (w w' : Str) : Decidable (AnyCase w w') := by unfold AnyCase IsKeyword; infer_instance

theorem recasedText_of (K : Str → Str → Prop) [∀ w w', Decidable (K w w')] {b b' : Str} (h1 : b.length < 200) (h2 : b'.length < 200)
    (h : recasedB (fun w w' => decide (K w w')) false (lexF 200 b) (lexF 200 b') = true) : RecasedText K b b' :=
  ⟨lexF 200 b, lexF 200 b', lexF_spec 200 (by omega), lexF_spec 200 (by omega), recasedB_sound (fun _ _ h => of_decide_eq_true h) h⟩

def recLow : Str := c!"T\n├── when a\n│   ├── it b\n│   └── given c\n│       └── it should revert\n└── it works"
def recCap : Str := c!"T\n├── When a\n│   ├── It b\n│   └── Given c\n│       └── It should revert\n└── It works"
def recIts : Str := c!"T\n├── When a\n│   ├── IT b\n│   └── given c\n│       └── IT should revert\n└── iT works"
def recAll : Str := c!"T\n├── WHEN a\n│   ├── IT b\n│   └── GIVEN c\n│       └── IT should revert\n└── IT works"

theorem block_rec {b : Str} (h1 : b.take 1 = c!"T") (h2 : b.getLast? = some 's') (h3 : ¬ c!"\n\n" <:+: b) : Block b := by
  refine ⟨?_, ?_, h3⟩
  · cases b with
    | nil => cases h1
    | cons c r => simp at h1; subst h1; exact ⟨'T', r, rfl, by decide⟩
  · obtain ⟨l, hl⟩ := List.getLast?_eq_some_iff.1 h2
    exact ⟨l, 's', hl, by decide⟩

theorem t_not_comment {b : Str} (h1 : b.take 2 = c!"T\n") : ¬ OnlyComments b := by
  intro h
  obtain ⟨c, d, r, rfl⟩ : ∃ c d r, b = c :: d :: r := by
    match b, h1 with
    | c :: d :: r, _ => exact ⟨c, d, r, rfl⟩
  simp at h1
  obtain ⟨rfl, rfl⟩ := h1
  obtain ⟨w, r', e, hw⟩ := h c!"T" ⟨by decide, [], '\n' :: r, rfl, .inl rfl, .inr ⟨r, rfl⟩⟩
  cases w with
  | nil => simp at e
  | cons x w =>
    simp at e

theorem trees_rec {b : Str} (h1 : b.take 2 = c!"T\n") (h2 : b.getLast? = some 's') (h3 : ¬ c!"\n\n" <:+: b) : Trees (b ++ c!"\n") [b] := by
  refine .inr ⟨[b], ?_, ?_⟩
  · have hb : Block b := block_rec (by
      have := congrArg (List.take 1) h1
      rwa [List.take_take] at this) h2 h3
    exact .last (p := []) (q := c!"\n") (by simp [Blank]) hb (by simp [Blank, isWs_n])
  · have := t_not_comment h1
    simp [this]

theorem trees_low : Trees (recLow ++ c!"\n") [recLow] := trees_rec rfl rfl (by decide +kernel)
theorem trees_cap : Trees (recCap ++ c!"\n") [recCap] := trees_rec rfl rfl (by decide +kernel)
theorem trees_its : Trees (recIts ++ c!"\n") [recIts] := trees_rec rfl rfl (by decide +kernel)
theorem trees_all : Trees (recAll ++ c!"\n") [recAll] := trees_rec rfl rfl (by decide +kernel)

theorem low_cap : Each (RecasedText FirstLetter) [recLow] [recCap] := .cons (recasedText_of _ (by decide +kernel) (by decide +kernel) (by decide +kernel)) .nil
theorem low_its : Each (RecasedText AnyIt) [recLow] [recIts] := .cons (recasedText_of _ (by decide +kernel) (by decide +kernel) (by decide +kernel)) .nil
theorem low_all : Each (RecasedText AnyCase) [recLow] [recAll] := .cons (recasedText_of _ (by decide +kernel) (by decide +kernel) (by decide +kernel)) .nil

def recNames (text : Str) : Option (List Str) :=
  match translate id .default text with
  | .ok ⟨[⟨_, fns⟩]⟩ => some (fns.map (·.identifier))
  | _ => none

set_option maxRecDepth 16000 in
theorem names_low : recNames (recLow ++ c!"\n") = some [c!"whenA", c!"test_WhenA", c!"test_RevertGiven_C", c!"test_Works"] := by cbv
set_option maxRecDepth 16000 in
theorem names_cap : recNames (recCap ++ c!"\n") = some [c!"whenA", c!"test_WhenA", c!"test_RevertGiven_C", c!"test_Works"] := by cbv
set_option maxRecDepth 16000 in
theorem names_its : recNames (recIts ++ c!"\n") = some [c!"whenA", c!"test_WhenA", c!"test_RevertGiven_C", c!"test_Works"] := by cbv
set_option maxRecDepth 16000 in
theorem names_all : recNames (recAll ++ c!"\n") = some [c!"wHENA", c!"test_WHENA", c!"test_RevertGIVEN_C", c!"test_Works"] := by cbv

/-- C120 applies to a tree with small and the same tree with capital first letters. -/
example : ∃ n fns fns', translate id .default (recLow ++ c!"\n") = .ok ⟨[⟨n, fns⟩]⟩ ∧ translate id .default (recCap ++ c!"\n") = .ok ⟨[⟨n, fns'⟩]⟩ ∧ Each BodyCommentsOnly fns fns' := by
  haveI := lawful_ascii
  rcases C120_first_letter (order := id) (fun _ => .refl _) trees_low trees_cap low_cap .default with h | ⟨e, _, h, _⟩
  · exact h
  · have := names_low
    simp [recNames, h] at this

theorem rec_parsed {text : Str} {l : List Str} (h : recNames text = some l) : ∃ asts, parse id text = .ok asts := by
  unfold recNames at h
  split at h
  · rename_i e
    cases hp : parse id text with
    | ok asts => exact ⟨asts, rfl⟩
    | err e' => simp [translate, hp, Res.mapErr] at e
    | panic => simp [translate, hp, Res.mapErr] at e
  · cases h

/-- `it` in capital letters and mixed case. -/
example : ∃ n fns fns', translate id .default (recLow ++ c!"\n") = .ok ⟨[⟨n, fns⟩]⟩ ∧ translate id .default (recIts ++ c!"\n") = .ok ⟨[⟨n, fns'⟩]⟩ ∧ Each BodyCommentsOnly fns fns' := by
  haveI := lawful_ascii
  obtain ⟨asts, h⟩ := rec_parsed names_low
  obtain ⟨asts', h'⟩ := rec_parsed names_its
  rcases C120_it_partial (order := id) trees_low trees_its low_its h h' .default with h | ⟨e, _, h, _⟩
  · exact h
  · have := names_low
    simp [recNames, h] at this

/-- The exit codes of checks agree. -/
example : (checkRun wordsEnv ⟨[wordsPath], false, false, false⟩ (wordsDisk (recCap ++ c!"\n"))).exit =
    (checkRun wordsEnv ⟨[wordsPath], false, false, false⟩ (wordsDisk (recLow ++ c!"\n"))).exit := by
  haveI := lawful_ascii
  refine C120_exit (fun _ => .refl _) rfl ?_ ?_
  · intro t ht p hp
    rw [(solOf_iff _ _).1 hp, List.mem_singleton.1 ht]
    decide +kernel
  · intro t ht
    rw [List.mem_singleton.1 ht]
    exact .inr ⟨_, _, _, _, rfl, rfl, trees_low, trees_cap, low_cap⟩

/-- **C120 is false in full:** `WHEN a` and `when a` have modifiers and tests of different names. -/
theorem C120_false : ∃ (U : Ucd) (_ : @LawfulUcd U), ¬ ∀ (order : HashOrder) (cfg : Config) (text text' : Str) (bs bs' : List Str), (∀ l, (order l).Perm l) →
    Trees text bs → Trees text' bs' → Each (RecasedText AnyCase) bs bs' → ∀ (n n' : Str) (fns fns' : List HFn),
    translate order cfg text = .ok ⟨[⟨n, fns⟩]⟩ → translate order cfg text' = .ok ⟨[⟨n', fns'⟩]⟩ → fns.map nameOf = fns'.map nameOf := by
  refine ⟨asciiUcd, lawful_ascii, fun h => ?_⟩
  have key : ∀ {text : Str} {l : List Str}, recNames text = some l → ∃ n fns, translate id .default text = .ok ⟨[⟨n, fns⟩]⟩ ∧ fns.map (·.identifier) = l := by
    intro text l h
    unfold recNames at h
    split at h
    · rename_i n fns e
      exact ⟨n, fns, e, Option.some.inj h⟩
    · cases h
  obtain ⟨n, fns, h1, e1⟩ := key names_low
  obtain ⟨n', fns', h2, e2⟩ := key names_all
  have := h id .default _ _ _ _ (fun _ => .refl _) trees_low trees_all low_all n n' fns fns' h1 h2
  have h3 : fns.map (·.identifier) = fns'.map (·.identifier) := by
    have := congrArg (List.map Prod.snd) this
    simpa [nameOf, Function.comp_def] using this
  rw [e1, e2] at h3
  exact absurd h3 (by decide)

def recDup : Str := c!"T\n├── it works\n└── It works"
def recNoDup : Str := c!"T\n├── it works\n└── IT works"

theorem trees_dup : Trees (recDup ++ c!"\n") [recDup] := trees_rec rfl rfl (by decide +kernel)
theorem trees_noDup : Trees (recNoDup ++ c!"\n") [recNoDup] := trees_rec rfl rfl (by decide +kernel)

set_option maxRecDepth 16000 in
theorem noDup_names : recNames (recNoDup ++ c!"\n") = some [c!"test_Works", c!"test_Works"] := by cbv
set_option maxRecDepth 16000 in
theorem dup_names : recNames (recDup ++ c!"\n") = none := by cbv

/-- **C120 is false in full:** the case of `it` decides whether a file is accepted: `it works` and `It works` are duplicates, `it works` and `IT works` are not, although both are to become
the test `test_Works`. -/
theorem C120_accepted_false : ∃ (U : Ucd) (_ : @LawfulUcd U), ¬ ∀ (order : HashOrder) (cfg : Config) (text text' : Str) (bs bs' : List Str), (∀ l, (order l).Perm l) →
    Trees text bs → Trees text' bs' → Each (RecasedText AnyIt) bs bs' → (∃ r, translate order cfg text' = .ok r) → ∃ r, translate order cfg text = .ok r := by
  refine ⟨asciiUcd, lawful_ascii, fun h => ?_⟩
  haveI := lawful_ascii
  have h1 : ∃ r, translate id .default (recNoDup ++ c!"\n") = .ok r := by
    have := noDup_names
    unfold recNames at this
    split at this
    · rename_i e; exact ⟨_, e⟩
    · cases this
  obtain ⟨r, hr⟩ := h id .default _ _ _ _ (fun _ => .refl _) trees_dup trees_noDup
    (.cons (recasedText_of _ (by decide +kernel) (by decide +kernel) (by decide +kernel)) .nil) h1
  obtain ⟨n, fns, rfl, _⟩ := translate_ok hr
  have := dup_names
  simp [recNames, hr] at this

end Bulloak
