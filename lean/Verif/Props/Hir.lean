import Verif.Lemmas.Hir3
import Verif.Model.Latin
/-!
# From accepted trees to functions (C16 to C23, C26, C27)

`parseOne order text = .ok ast` says that `ast` is the tree of the accepted text; `translateOne` yields the
functions of the generated contract.
-/

set_option linter.unusedSectionVars false

namespace Bulloak
open Spec

section
variable [U : Ucd]

/-- **C16.** Sanitising acts character by character: `-` becomes `_`, identifier characters and spaces are
kept, everything else is dropped.  Hence only identifier characters and spaces remain and sanitising again
changes nothing. -/
theorem C16_sanitize [LawfulUcd] (s : Str) :
    (∀ a b : Str, sanitize (a ++ b) = sanitize a ++ sanitize b) ∧
    sanitize c!"-" = c!"_" ∧
    (∀ c, (U.isXid c = true ∨ c = ' ') → sanitize [c] = [c]) ∧
    (∀ c, c ≠ '-' → U.isXid c = false → c ≠ ' ' → sanitize [c] = []) ∧
    (∀ c ∈ sanitize s, U.isXid c = true ∨ c = ' ') ∧
    sanitize (sanitize s) = sanitize s := by
  have hx : U.isXid '_' = true := by rw [LawfulUcd.plain_xid _ (by decide)]; decide
  have hd : U.isXid '-' = false := by rw [LawfulUcd.plain_xid _ (by decide)]; decide
  refine ⟨sanitize_append, ?_, ?_, ?_, fun c h => sanitize_mem h, sanitize_idem s⟩
  · simp [sanitize, hx]
  · intro c hc
    have : c ≠ '-' := by
      rintro rfl
      rcases hc with h | h
      · rw [hd] at h; cases h
      · exact absurd h (by decide)
    apply sanitize_id
    · intro d hd'; rw [List.mem_singleton.1 hd']; exact hc
    · intro d hd'; rw [List.mem_singleton.1 hd']; exact this
  · intro c h1 h2 h3
    simp [sanitize, h1, h2, h3]

/-- **C16**, words: the words the names are built from are the maximal runs of characters that are not white
space. -/
theorem C16_words (s : Str) (ws : List Str) : splitWs s = ws ↔ Words s ws := words_iff.symm

/-- **C17** (partial).  All generated names are identifiers in the sense of Unicode; they are Solidity
identifiers if the text has no non-ASCII characters besides the box-drawing ones.
Missing: Solidity identifiers for all texts, which is false (`C17_solidity_false`). -/
theorem C17_names_partial [LawfulUcd] {order : HashOrder} {text : Str} {ast : Ast} (h : parseOne order text = .ok ast)
    (cfg : Config) : ∃ n fns, translateOne cfg ast = .ok ⟨[⟨n, fns⟩]⟩ ∧ ∀ f ∈ fns,
      XidIdent f.identifier ∧ ((∀ c ∈ text, isPlain c = true) → SolIdent f.identifier) := by
  refine ⟨_, _, translateOne_eq h cfg, ?_⟩
  obtain ⟨s, n, cs, rfl, hg⟩ := parseOne_good h
  intro f hf
  obtain ⟨h1, h2⟩ := expected_names hg hf
  refine ⟨h1, fun hp => h2 ?_⟩
  refine (titles_chars h (P := fun c => isPlain c = true) (by decide) (by decide) ?_).2
  intro toks ht t htm c hc
  obtain ⟨pre, post, rfl, _⟩ := C01_token_slice ht t htm
  exact hp c (by simp [hc])

/-- **C18.** The modifiers of the contract are those of the conditions that have nested conditions, in
pre-order, named by their camel-cased titles; they carry no modifiers and no body. -/
theorem C18_modifiers [LawfulUcd] {order : HashOrder} {text : Str} {ast : Ast} (h : parseOne order text = .ok ast)
    (cfg : Config) : ∃ n fns, translateOne cfg ast = .ok ⟨[⟨n, fns⟩]⟩ ∧
      fns.filter HFn.isModifier = ((conditionsOf (kids ast)).filter hasNested).map
        (fun c => ⟨camel (titleOf c), .modifier, c.span, none, none⟩) := by
  refine ⟨_, _, translateOne_eq h cfg, ?_⟩
  obtain ⟨s, n, cs, rfl, hg⟩ := parseOne_good h
  exact expected_modifiers hg

/-- **C19.** The contract is named by the root; its functions are, top to bottom: the test of each top-level
action; for each condition in pre-order its modifier (if it has nested conditions) followed by its test (if it
has direct actions). -/
theorem C19_outline [LawfulUcd] {order : HashOrder} {text : Str} {ast : Ast} (h : parseOne order text = .ok ast)
    (cfg : Config) : ∃ fns, translateOne cfg ast = .ok ⟨[⟨titleOf ast, fns⟩]⟩ ∧
      fns.map (fun f => (f.ty, f.identifier)) = outline (kids ast) := by
  refine ⟨_, translateOne_eq h cfg, ?_⟩
  obtain ⟨s, n, cs, rfl, hg⟩ := parseOne_good h
  exact outline_eq hg _

/-- **C20, C22.** Every test belongs to a top-level action or to a condition with direct actions, and each of
those has a test.  The test of an action has no modifiers and consists of the action's title and descriptions.
The test of a condition reached through the conditions `p` has exactly the modifiers of `p`, outermost first,
followed by its own if it has nested conditions, and consists of the titles and descriptions of its direct
actions. -/
theorem C20_C22_tests [LawfulUcd] {order : HashOrder} {text : Str} {ast : Ast} (h : parseOne order text = .ok ast)
    (cfg : Config) : ∃ n fns, translateOne cfg ast = .ok ⟨[⟨n, fns⟩]⟩ ∧ ∀ f : HFn, f.isFunction = true →
      (f ∈ fns ↔
        (∃ a ∈ kids ast, a.isAction = true ∧ f.identifier = c!"test_" ++ sanitize (glue ((splitWs (titleOf a)).drop 1)) ∧
          f.span = a.span ∧ f.modifiers = none ∧
          f.children = some ((commentLines a).map BodyItem.comment ++ if cfg.emitVmSkip then [.vmSkip] else [])) ∨
        (∃ p c, Path (kids ast) p c ∧ actionsOf c ≠ [] ∧ f.identifier = testName c ∧ f.span = c.span ∧
          f.modifiers = modList ((p ++ if hasNested c then [c] else []).map modName) ∧
          f.children = some (((actionsOf c).flatMap commentLines).map BodyItem.comment ++
            if cfg.emitVmSkip then [.vmSkip] else []))) := by
  refine ⟨_, _, translateOne_eq h cfg, ?_⟩
  obtain ⟨s, n, cs, rfl, hg⟩ := parseOne_good h
  intro f hf
  simp only [kids]
  obtain ⟨fi, fty, fsp, fm, fc⟩ := f
  have hty : fty = .function := by simpa [HFn.isFunction] using hf
  subst hty
  rw [mem_expected]
  constructor
  · rintro (⟨a, ha, h1, h2⟩ | ⟨⟨p, c⟩, hp, hc⟩)
    · left
      simp only [actFn, HFn.mk.injEq] at h2
      obtain ⟨rfl, _, rfl, rfl, rfl⟩ := h2
      exact ⟨a, ha, h1, rfl, rfl, rfl, rfl⟩
    · right
      rcases mem_condFns.1 hc with ⟨_, h2⟩ | ⟨h1, h2⟩
      · simp [modFn] at h2
      · simp only [condFn, HFn.mk.injEq] at h2
        obtain ⟨rfl, _, rfl, rfl, rfl⟩ := h2
        exact ⟨p, c, (mem_inScopeAll hg p c).1 hp, h1, rfl, rfl, rfl, rfl⟩
  · rintro (⟨a, ha, h1, rfl, rfl, rfl, rfl⟩ | ⟨p, c, hp, h1, rfl, rfl, rfl, rfl⟩)
    · exact Or.inl ⟨a, ha, h1, rfl⟩
    · exact Or.inr ⟨(p, c), (mem_inScopeAll hg p c).2 hp, mem_condFns.2 (Or.inr ⟨h1, rfl⟩)⟩

/-- **C22**, globally: the comments of all tests together are exactly the actions and descriptions of the tree;
none is lost or duplicated. -/
theorem C22_nothing_lost [LawfulUcd] {order : HashOrder} {text : Str} {ast : Ast} (h : parseOne order text = .ok ast)
    (cfg : Config) : ∃ n fns, translateOne cfg ast = .ok ⟨[⟨n, fns⟩]⟩ ∧ (fns.flatMap comments).Perm (leaves (kids ast)) := by
  refine ⟨_, _, translateOne_eq h cfg, ?_⟩
  obtain ⟨s, n, cs, rfl, hg⟩ := parseOne_good h
  exact comments_expected hg _

/-- **C21.** No modifier is declared twice, and every modifier a function uses is declared earlier. -/
theorem C21_declared_before_use [LawfulUcd] {order : HashOrder} (ho : ∀ l, (order l).Perm l) {text : Str} {ast : Ast}
    (h : parseOne order text = .ok ast) (cfg : Config) : ∃ n fns, translateOne cfg ast = .ok ⟨[⟨n, fns⟩]⟩ ∧
      ((fns.filter HFn.isModifier).map HFn.identifier).Nodup ∧
      ∀ A f B, fns = A ++ f :: B → ∀ m ∈ f.modifiers.getD [], ∃ g ∈ A, g.isModifier = true ∧ g.identifier = m := by
  refine ⟨_, _, translateOne_eq h cfg, ?_⟩
  obtain ⟨toks, ht, hp, _⟩ := parseOne_ok h
  have hd := ((C14_accepted_iff ho ht hp).1 h).2.2
  obtain ⟨s, n, cs, rfl, hg⟩ := parseOne_good h
  refine ⟨?_, ?_⟩
  · simp only [kids, expected_modifiers hg, List.map_map]
    have := modNames_nodup hg hd
    exact ((List.filter_sublist (l := conditionsOf cs) (p := hasNested)).map modName).nodup this
  · intro A f B he m hm
    rcases declared_expected hg cfg.emitVmSkip A f B he m hm with h | h
    · simp at h
    · exact h

/-- **C23.** The name of the test of a condition with title words `kw :: ws`: `test_Revert<Kw>_<Ws>` if its
first direct action reads `it should revert`, else `test_<Kw><Ws>`. -/
theorem C23_revert_names [LawfulUcd] {order : HashOrder} {text : Str} {ast : Ast} (h : parseOne order text = .ok ast)
    (cfg : Config) : ∃ n fns, translateOne cfg ast = .ok ⟨[⟨n, fns⟩]⟩ ∧
      ∀ c ∈ conditionsOf (kids ast), ∀ a as, actionsOf c = a :: as → ∃ kw ws, Words (titleOf c) (kw :: ws) ∧
        IsConditionWord kw ∧ ∃ f ∈ fns, f.isFunction = true ∧ f.span = c.span ∧
          (revertAction a = true → f.identifier = c!"test_Revert" ++ capital kw ++ c!"_" ++ (ws.map capital).flatten) ∧
          (revertAction a = false → f.identifier = c!"test_" ++ capital kw ++ (ws.map capital).flatten) := by
  refine ⟨_, _, translateOne_eq h cfg, ?_⟩
  obtain ⟨s, n, cs, rfl, hg⟩ := parseOne_good h
  intro c hc a as ha
  obtain ⟨kw, rest, hk, _, hw⟩ := condTitle_words (good_mem hg c hc).1
  obtain ⟨p, hp⟩ := mem_path hg hc
  refine ⟨kw, splitWs rest, words_iff.2 hw, hk, condFn cfg.emitVmSkip p c, ?_, rfl, rfl, ?_, ?_⟩
  · exact mem_expected.2 (Or.inr ⟨(p, c), (mem_inScopeAll hg p c).2 hp, mem_condFns.2 (Or.inr ⟨by simp [ha], rfl⟩)⟩)
  · intro hr
    simp [condFn, testName, hw, reverts, ha, hr, glue]
  · intro hr
    simp [condFn, testName, hw, reverts, ha, hr, glue]

/-- **C23**, what counts as `it should revert`: for an ASCII title without surrounding white space, the title
with everything but letters, digits, `_`, `-` and spaces removed equals `it should revert` up to case. -/
theorem C23_revert_ascii [LawfulUcd] (a : Ast) (hp : ∀ c ∈ titleOf a, c.toNat < 128) (ht : trim (titleOf a) = titleOf a) :
    revertAction a = true ↔ ((titleOf a).filter (fun c => isAsciiAlnum c || c == '_' || c == '-' || c == ' ')).map asciiLower
      = c!"it should revert" := by
  have hpl : ∀ c ∈ titleOf a, isPlain c = true := fun c hc => by simp [isPlain, hp c hc]
  have hlow : ∀ (s : Str), (∀ c ∈ s, isPlain c = true) → sanitize (strToLower s) =
      ((s.filter (fun c => isAsciiAlnum c || c == '_' || c == '-' || c == ' ')).map asciiLower).map
        (fun c => if c = '-' then '_' else c) := by
    intro s
    induction s with
    | nil => intro _; rfl
    | cons c s ih =>
      intro h
      have ih := ih (fun c hc => h c (by simp [hc]))
      have hc := h c (by simp)
      have e : strToLower (c :: s) = [asciiLower c] ++ strToLower s := by
        simp [strToLower, LawfulUcd.plain_lower c hc]
      rw [e, sanitize_append, ih]
      have hpl' : isPlain (asciiLower c) = true :=
        plain_lower_closed c hc _ (by rw [LawfulUcd.plain_lower c hc]; simp)
      have key : sanitize [asciiLower c] = if (isAsciiAlnum c || c == '_' || c == '-' || c == ' ') = true
          then [if asciiLower c = '-' then '_' else asciiLower c] else [] := by
        have hx := LawfulUcd.plain_xid _ hpl'
        have hu : U.isXid '_' = true := by rw [LawfulUcd.plain_xid _ (by decide)]; decide
        rcases asciiLower_cases c with ⟨h1, h2⟩ | ⟨h1, h2⟩
        · have ha : isAsciiAlnum c = true := by
            simp only [isAsciiAlnum, Bool.or_eq_true, Bool.and_eq_true, decide_eq_true_eq]; omega
          have hb : isAsciiAlnum (asciiLower c) = true := by
            simp only [isAsciiAlnum, Bool.or_eq_true, Bool.and_eq_true, decide_eq_true_eq]; omega
          have hne : asciiLower c ≠ '-' := by
            intro he; rw [he] at h2; simp only [show ('-' : Char).toNat = 45 from rfl] at h2; omega
          rw [hb] at hx
          simp [sanitize, hne, ha, hx]
        · rw [h2] at hx ⊢
          by_cases hd : c = '-'
          · subst hd; simp [sanitize, hu]
          · simp only [sanitize, List.map_cons, List.map_nil, hd, if_false, List.filter_cons, List.filter_nil, hx]
            have : (c == '-') = false := by simpa using hd
            rw [this, Bool.or_false]
      rw [key]
      by_cases hf : (isAsciiAlnum c || c == '_' || c == '-' || c == ' ') = true
      · simp only [List.filter_cons, hf, if_true]; simp
      · simp only [List.filter_cons, hf]; simp
  rw [revertAction, decide_eq_true_iff, ht, hlow _ hpl]
  generalize ((titleOf a).filter (fun c => isAsciiAlnum c || c == '_' || c == '-' || c == ' ')).map asciiLower = l
  constructor
  · intro h
    have hn : ∀ c ∈ l, c ≠ '-' := by
      rintro c hc rfl
      have : '_' ∈ l.map (fun c => if c = '-' then '_' else c) := List.mem_map.2 ⟨'-', hc, by simp⟩
      rw [h] at this
      exact absurd this (by decide)
    rw [← h]
    conv => lhs; rw [← List.map_id l]
    apply List.map_congr_left
    intro c hc
    simp [hn c hc]
  · rintro rfl; decide

/-- **C26** (partial).  The tests of distinct conditions have distinct names; in a tree without top-level
actions all tests have distinct names.  Missing: top-level actions, whose tests may collide with others
(`C26_unique_false`). -/
theorem C26_unique_partial [LawfulUcd] {order : HashOrder} (ho : ∀ l, (order l).Perm l) {text : Str} {ast : Ast}
    (h : parseOne order text = .ok ast) (cfg : Config) : ∃ n fns, translateOne cfg ast = .ok ⟨[⟨n, fns⟩]⟩ ∧
      ((conditionsOf (kids ast)).map testName).Nodup ∧
      ((∀ a ∈ kids ast, a.isAction = false) → ((fns.filter HFn.isFunction).map HFn.identifier).Nodup) := by
  refine ⟨_, _, translateOne_eq h cfg, ?_⟩
  obtain ⟨toks, ht, hp, han⟩ := parseOne_ok h
  have hd := ((C14_accepted_iff ho ht hp).1 h).2.2
  obtain ⟨s, n, cs, rfl, hg⟩ := parseOne_good h
  have hn := testNames_nodup hg hd
  refine ⟨hn, ?_⟩
  intro hna
  simp only [kids] at *
  have e : ((expected cfg.emitVmSkip cs).filter HFn.isFunction).map HFn.identifier =
      ((conditionsOf cs).filter (fun c => !(actionsOf c).isEmpty)).map testName := by
    clear hd h hp hn han
    induction cs with
    | nil => rfl
    | cons a as ih =>
      rw [expected_cons, List.filter_append, List.map_append, ih (fun c hc => hg c (by simp [hc])) (fun c hc => hna c (by simp [hc])),
        conditionsOf_cons a as, List.filter_append, List.map_append]
      congr 1
      rw [hna a (by simp), ← inScope_snd (hg a (by simp)) []]
      simp only [Bool.false_eq_true, if_false]
      generalize inScope [] a = l
      induction l with
      | nil => rfl
      | cons p l ih2 =>
        rw [List.flatMap_cons, List.filter_append, List.map_append, ih2, List.map_cons]
        unfold condFns
        by_cases h1 : hasNested p.2 = true <;> by_cases h2 : actionsOf p.2 = [] <;>
          simp [h1, h2, HFn.isFunction, modFn, condFn]
  rw [e]
  exact ((List.filter_sublist (l := conditionsOf cs)).map testName).nodup hn

/-- **C27** (partial).  If every condition lists its actions before its nested conditions, the comments of the
tests are in the order of the tree.  Missing: trees with actions after nested conditions, for which it is false
(`C27_order_false`). -/
theorem C27_order_partial [LawfulUcd] {order : HashOrder} {text : Str} {ast : Ast} (h : parseOne order text = .ok ast)
    (cfg : Config) (hf : ∀ c ∈ conditionsOf (kids ast), ActionsFirst c) :
    ∃ n fns, translateOne cfg ast = .ok ⟨[⟨n, fns⟩]⟩ ∧ fns.flatMap comments = leaves (kids ast) := by
  refine ⟨_, _, translateOne_eq h cfg, ?_⟩
  obtain ⟨s, n, cs, rfl, hg⟩ := parseOne_good h
  exact comments_expected_eq hg _ hf

end

/-! ## Witnesses -/

/-- The functions of a text. -/
def fnsOf [Ucd] (text : Str) : List HFn :=
  match parseOne id text with
  | .ok ast => match translateOne .default ast with
    | .ok ⟨[c]⟩ => c.children
    | _ => []
  | _ => []

theorem fnsOf_eq {U : Ucd} {text : Str} (h : fnsOf text ≠ []) : ∃ ast n, parseOne id text = .ok ast ∧
    translateOne .default ast = .ok ⟨[⟨n, fnsOf text⟩]⟩ := by
  revert h
  unfold fnsOf
  cases hp : parseOne id text with
  | err => simp
  | panic => simp
  | ok ast =>
    simp only
    cases ht : translateOne .default ast with
    | err => simp
    | panic => simp
    | ok r =>
      obtain ⟨cs⟩ := r
      cases cs with
      | nil => simp
      | cons c cs =>
        cases cs with
        | nil => intro _; exact ⟨ast, c.identifier, rfl, ht⟩
        | cons => simp

set_option maxRecDepth 4000 in
/-- Full C17 is false: with tables that know `é`, `when café` yields the name `test_WhenCafé`, which is not a
Solidity identifier. -/
theorem C17_solidity_false : ∃ (U : Ucd) (_ : @LawfulUcd U), ¬ ∀ (order : HashOrder) (text : Str) (ast : Ast) (n : Str)
    (fns : List HFn), @parseOne U order text = .ok ast → @translateOne U .default ast = .ok ⟨[⟨n, fns⟩]⟩ →
    ∀ f ∈ fns, SolIdent f.identifier := by
  refine ⟨latinUcd, lawful_latin, ?_⟩
  intro h
  have hf : (@fnsOf latinUcd c!"Foo\n└── when café\n    └── it x").map HFn.identifier = [c!"test_WhenCafé"] := by cbv
  obtain ⟨ast, n, h1, h2⟩ := @fnsOf_eq latinUcd c!"Foo\n└── when café\n    └── it x" (by intro he; rw [he] at hf; cases hf)
  have hm : c!"test_WhenCafé" ∈ (@fnsOf latinUcd c!"Foo\n└── when café\n    └── it x").map HFn.identifier := by rw [hf]; simp
  obtain ⟨f, hfm, he⟩ := List.mem_map.1 hm
  obtain ⟨c, r, hcr, _, hr⟩ := h id _ ast n _ h1 h2 f hfm
  rw [he] at hcr
  simp only [List.cons.injEq] at hcr
  rw [← hcr.2] at hr
  exact absurd (hr 'é' (by simp)) (by decide)

set_option maxRecDepth 4000 in
/-- Full C26 is false: `it when x` below the root and a condition `when x` both give `test_WhenX`. -/
theorem C26_unique_false : ∃ (U : Ucd) (_ : @LawfulUcd U), ¬ ∀ (order : HashOrder) (text : Str) (ast : Ast) (n : Str)
    (fns : List HFn), @parseOne U order text = .ok ast → @translateOne U .default ast = .ok ⟨[⟨n, fns⟩]⟩ →
    ((fns.filter HFn.isFunction).map HFn.identifier).Nodup := by
  refine ⟨asciiUcd, lawful_ascii, ?_⟩
  intro h
  have hf : ((@fnsOf asciiUcd c!"Foo\n├── it when x\n└── when x\n    └── it y").filter HFn.isFunction).map HFn.identifier =
    [c!"test_WhenX", c!"test_WhenX"] := by cbv
  obtain ⟨ast, n, h1, h2⟩ := @fnsOf_eq asciiUcd c!"Foo\n├── it when x\n└── when x\n    └── it y"
    (by intro he; rw [he] at hf; cases hf)
  have := h id _ ast n _ h1 h2
  rw [hf] at this
  simp at this

set_option maxRecDepth 4000 in
/-- Full C27 is false: in `when a { when b { it x }, it y }` the comment `it y` is emitted before `it x`. -/
theorem C27_order_false : ∃ (U : Ucd) (_ : @LawfulUcd U), ¬ ∀ (order : HashOrder) (text : Str) (ast : Ast) (n : Str)
    (fns : List HFn), @parseOne U order text = .ok ast → @translateOne U .default ast = .ok ⟨[⟨n, fns⟩]⟩ →
    fns.flatMap comments = leaves (kids ast) := by
  refine ⟨asciiUcd, lawful_ascii, ?_⟩
  intro h
  have hf : (@fnsOf asciiUcd c!"Foo\n└── when a\n    ├── when b\n    │   └── it x\n    └── it y").flatMap comments =
    [c!"it y", c!"it x"] := by cbv
  obtain ⟨ast, n, h1, h2⟩ := @fnsOf_eq asciiUcd c!"Foo\n└── when a\n    ├── when b\n    │   └── it x\n    └── it y"
    (by intro he; rw [he] at hf; cases hf)
  have hl : (match @parseOne asciiUcd id c!"Foo\n└── when a\n    ├── when b\n    │   └── it x\n    └── it y" with
    | .ok a => leaves (kids a) | _ => []) = [c!"it x", c!"it y"] := by cbv
  have := h id _ ast n _ h1 h2
  rw [hf] at this
  rw [h1] at hl
  simp only at hl
  rw [hl] at this
  simp at this

/-! ## Non-vacuity -/
section
attribute [local instance] asciiUcd

set_option maxRecDepth 8000 in
/-- A tree with a top-level action, nested conditions, a reverting test and descriptions; the first action of
`When a-b` comes after a nested condition. -/
example : (fnsOf c!"Foo\n├── it works!\n│   └── quite well\n└── When a-b\n    ├── given c\n    │   └── It should REVERT.\n    ├── it is\n    └── it was").map
    (fun f => (f.identifier, f.modifiers, comments f)) =
    [(c!"test_Works", none, [c!"it works!", c!"    quite well"]),
     (c!"whenA_b", none, []),
     (c!"test_WhenA_b", some [c!"whenA_b"], [c!"it is", c!"it was"]),
     (c!"test_RevertGiven_C", some [c!"whenA_b"], [c!"It should REVERT."])] := by
  cbv

end
end Bulloak
