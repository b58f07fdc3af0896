import Verif.Lemmas.Parse3
import Verif.Model.Syntax
import Verif.Model.Ascii
/-!
# C05–C10, C56: parsing
-/

namespace Bulloak
open Spec

section
variable [U : Ucd]

/-- Acceptance by `parseOne` in stages. -/
theorem parseOne_ok {order : HashOrder} {text : Str} {ast : Ast} (h : parseOne order text = .ok ast) :
    ∃ toks, tokenize text = .ok toks ∧ parseTokens toks = .ok ast ∧ analyze order ast = [] := by
  unfold parseOne at h
  cases ht : tokenize text with
  | err e => rw [ht] at h; cases h
  | panic => rw [ht] at h; cases h
  | ok toks =>
    rw [ht] at h
    simp only [Res.mapErr, Res.bind_ok] at h
    cases hp : parseTokens toks with
    | err e => rw [hp] at h; cases h
    | panic => rw [hp] at h; cases h
    | ok a =>
      rw [hp] at h
      simp only [Res.mapErr, Res.bind_ok] at h
      split at h
      · rename_i he; cases h; exact ⟨toks, rfl, hp, he⟩
      · cases h

theorem parseOne_of {order : HashOrder} {text : Str} {ast : Ast} {toks : List Token}
    (ht : tokenize text = .ok toks) (hp : parseTokens toks = .ok ast) (ha : analyze order ast = []) :
    parseOne order text = .ok ast := by
  simp [parseOne, ht, hp, Res.mapErr, ha]

theorem parseOne_tree {order : HashOrder} {text : Str} {ast : Ast} (h : parseOne order text = .ok ast) :
    ∃ toks, tokenize text = .ok toks ∧ Tree toks ast := by
  obtain ⟨toks, ht, hp, _⟩ := parseOne_ok h
  exact ⟨toks, ht, (parseTokens_iff (tokenize_col ht) ast).1 hp⟩

theorem collectRes_ne_panic {ε α β : Type} {f : α → Res ε β} (hf : ∀ x, f x ≠ .panic) (l : List α) :
    collectRes f l ≠ .panic := by
  induction l with
  | nil => simp [collectRes]
  | cons x xs ih =>
    rw [collectRes]
    exact Res.bind_ne_panic (hf x) (fun _ _ => Res.bind_ne_panic ih (fun _ _ => by simp))

theorem parseOne_ne_panic (order : HashOrder) (text : Str) : parseOne order text ≠ .panic := by
  unfold parseOne
  cases ht : tokenize text with
  | err e => simp [Res.mapErr]
  | panic => exact absurd ht (tokenize_ne_panic text)
  | ok toks =>
    simp only [Res.mapErr, Res.bind_ok]
    cases hp : parseTokens toks with
    | err e => simp
    | panic => exact absurd hp (parseTokens_ne_panic (tokenize_col ht))
    | ok a =>
      simp only [Res.bind_ok]
      split <;> simp

/-- **C05.** Parsing any text yields trees or an error, never a panic.  (`panic` is also what the model
returns when its recursion bound is exhausted, so parsing takes boundedly many steps.) -/
theorem C05_parse_never_panics (order : HashOrder) (text : Str) : parse order text ≠ .panic :=
  collectRes_ne_panic (parseOne_ne_panic order) _

/-- **C56.** A text is parsed into a tree exactly when its tokens form a root word followed by branch
headers nested by indentation according to the grammar `Tree`; the tree is the one of the grammar. -/
theorem C56_grammar {text : Str} {toks : List Token} (h : tokenize text = .ok toks) (ast : Ast) :
    parseTokens toks = .ok ast ↔ Tree toks ast :=
  parseTokens_iff (tokenize_col h) ast

theorem rootItems_split {hs asts} (h : RootItems hs asts) : ∀ A k B, asts = A ++ k :: B →
    ∃ P d Q, hs = P ++ d :: Q ∧ Stands k d ∧ (d.glyph.kind = .tee ↔ B ≠ []) := by
  induction h with
  | nil => intro A k B h; simp at h
  | @item h sub rest ast asts hi _ hk hr ih =>
    intro A k B he
    cases A with
    | nil =>
      simp only [List.nil_append, List.cons.injEq] at he
      obtain ⟨rfl, rfl⟩ := he
      refine ⟨[], h, sub ++ rest, rfl, ?_, ?_⟩
      · have := items_stand hi
        generalize hl : preAll [ast] = l at this
        cases this with
        | cons hst _ =>
          cases ast with
          | root s t cs => simp [preAll, pre] at hl; rw [← hl.1] at hst; exact hst
          | condition s t cs => simp [preAll, pre] at hl; rw [← hl.1] at hst; exact hst
          | action s t cs => simp [preAll, pre] at hl; rw [← hl.1] at hst; exact hst
          | description s t => simp [preAll, pre] at hl; rw [← hl.1] at hst; exact hst
      · rw [hk]
        cases hr with
        | nil => simp
        | item => simp
    | cons a A =>
      simp only [List.cons_append, List.cons.injEq] at he
      obtain ⟨P, d, Q, h1, h2⟩ := ih A k B he.2
      exact ⟨h :: (sub ++ P), d, Q, by simp [h1], h2⟩

/-- **C06** (top-level branches; the claim for nested branches is false, see `C06_nested_false`).
Each child of the root is drawn with `├` when further children follow and with `└` when it is the last. -/
theorem C06_root_glyphs_partial {order : HashOrder} {text : Str} {ast : Ast}
    (h : parseOne order text = .ok ast) : ∃ toks, tokenize text = .ok toks ∧ DrawnRight toks ast := by
  obtain ⟨toks, ht, root, hs, kids', rfl, hk, hr, rfl⟩ := parseOne_tree h
  refine ⟨_, ht, ?_⟩
  intro A k B hkids
  obtain ⟨P, d, Q, rfl, hst, hg⟩ := rootItems_split hr A k B hkids
  have hsorted := tokenize_sorted ht
  have hok : d.Ok := rootItems_ok hr d (by simp)
  refine ⟨⟨d.glyph, by simp [flat, Header.toks], hst.1.symm⟩, ?_⟩
  intro t htm hts
  have hd : d.glyph ∈ root :: flat (P ++ d :: Q) := by simp [flat, Header.toks]
  have : t = d.glyph := by
    by_cases hne : t = d.glyph
    · exact hne
    · exfalso
      have hpw := hsorted.2
      have h1 := hsorted.1 t htm
      have h2 := hsorted.1 _ hd
      have hso : t.span.start.offset = d.glyph.span.start.offset := by rw [hts, hst.1]
      obtain ⟨i, hi, hei⟩ := List.getElem_of_mem htm
      obtain ⟨j, hj, hej⟩ := List.getElem_of_mem hd
      have hp := List.pairwise_iff_getElem.1 hpw
      rcases Nat.lt_trichotomy i j with hlt | heq | hgt
      · have := hp i j hi hj hlt
        rw [hei, hej] at this; omega
      · subst heq; rw [hei] at hej; exact hne hej
      · have := hp j i hj hi hgt
        rw [hei, hej] at this; omega
  subst this
  obtain ⟨ps, hl⟩ := lexes_exists text
  have hkl : ∀ pre (ps : List Piece), ∀ t ∈ tokensOf pre ps,
      (t.kind = .tee → t.lexeme = c!"├") ∧ (t.kind = .corner → t.lexeme = c!"└") := by
    intro pre ps
    induction ps generalizing pre with
    | nil => intro t ht; simp [tokensOf] at ht
    | cons p ps ih =>
      intro t ht
      have hw : ∀ w, wordKind w ≠ .tee ∧ wordKind w ≠ .corner := by
        intro w
        have : wordKind w = .when ∨ wordKind w = .it ∨ wordKind w = .given ∨ wordKind w = .word := by
          unfold wordKind; dsimp only
          split
          · simp
          · split
            · simp
            · split <;> simp
        rcases this with h | h | h | h <;> rw [h] <;> simp
      cases p with
      | tee => rcases List.mem_cons.1 ht with rfl | ht
               · simp
               · exact ih _ t ht
      | corner => rcases List.mem_cons.1 ht with rfl | ht
                  · simp
                  · exact ih _ t ht
      | word w => rcases List.mem_cons.1 ht with rfl | ht
                  · exact ⟨fun h => absurd h (hw _).1, fun h => absurd h (hw _).2⟩
                  · exact ih _ t ht
      | skip c => exact ih _ t ht
      | brk c => exact ih _ t ht
      | comment s => exact ih _ t ht
  have := hkl [] ps d.glyph (by rw [← tokenize_ok_tokensOf hl ht]; exact hd)
  have hb := hok.1
  by_cases hB : B = []
  · rw [if_pos hB]
    apply this.2
    cases hkind : d.glyph.kind with
    | tee => exact absurd hB (hg.1 hkind)
    | corner => rfl
    | _ => simp [hkind, TokenKind.isBranch] at hb
  · rw [if_neg hB]
    exact this.1 (hg.2 hB)

/-- **C07.** Every accepted tree is a root over conditions and actions, conditions contain conditions and
actions, actions contain descriptions, descriptions are leaves. -/
theorem C07_shape {order : HashOrder} {text : Str} {ast : Ast} (h : parseOne order text = .ok ast) : TreeShape ast := by
  obtain ⟨toks, ht, root, hs, kids, rfl, hk, hr, rfl⟩ := parseOne_tree h
  exact ⟨_, _, _, rfl, rootItems_shape hr⟩

/-- **C08.** The tokens of an accepted text are the root word followed by headers (a glyph and its words);
the nodes of the tree in pre-order correspond one to one, in order, to the headers: same place, same kind,
same words (condition titles up to sanitising, descriptions up to leading spaces). -/
theorem C08_words_preserved {order : HashOrder} {text : Str} {ast : Ast} (h : parseOne order text = .ok ast) :
    ∃ toks root hs, tokenize text = .ok toks ∧ toks = root :: flat hs ∧ root.kind = .word ∧ (∀ d ∈ hs, d.Ok) ∧
      (∃ s cs, ast = .root s root.lexeme cs ∧ s.start = root.span.start) ∧
      Each Stands (preAll (kids ast)) hs := by
  obtain ⟨toks, ht, root, hs, kids, rfl, hk, hr, rfl⟩ := parseOne_tree h
  exact ⟨_, root, hs, ht, rfl, hk, rootItems_ok hr, ⟨_, _, rfl, rfl⟩, rootItems_stand hr⟩

/-- **C09.** Nesting follows indentation: every child of a condition or action is right of it; among the
children of the root or of a condition, no child is right of any node that comes between its parent and
itself, so the parent is the nearest preceding branch in a smaller column (or the root).  By
`C08_words_preserved` pre-order is source order, by `C07_shape` a parent of branches is a condition. -/
theorem C09_nesting_is_indentation {order : HashOrder} {text : Str} {ast : Ast}
    (h : parseOne order text = .ok ast) : SibsLeft (kids ast) ∧ ∀ a ∈ preAll (kids ast), Nests a := by
  obtain ⟨toks, ht, root, hs, kids, rfl, hk, hr, rfl⟩ := parseOne_tree h
  exact ⟨(rootItems_indented hr).1, (rootItems_indented hr).2.2⟩

/-- **C10.** Spans nest: every node's span contains its children's spans, and siblings are disjoint and in
source order.  Every node but the root starts at a branch glyph of the source, and every node ends at the
end of a word of the source. -/
theorem C10_spans_nest {order : HashOrder} {text : Str} {ast : Ast} (h : parseOne order text = .ok ast) :
    SpansNest ast ∧ ∃ toks, tokenize text = .ok toks ∧
      (∀ a ∈ preAll (kids ast), ∃ t ∈ toks, t.kind.isBranch = true ∧ a.span.start = t.span.start) ∧
      ∀ a ∈ ast :: preAll (kids ast), ∃ t ∈ toks, t.kind.isWordLike = true ∧ a.span.stop = t.span.stop := by
  obtain ⟨toks, ht, root, hs, kids', rfl, hk, hr, rfl⟩ := parseOne_tree h
  have hsorted := tokenize_sorted ht
  have e : root :: flat hs = [root] ++ flat hs := rfl
  rw [e] at hsorted
  obtain ⟨h1, h2, h3⟩ := tokSorted_append.1 hsorted
  obtain ⟨i1, i2⟩ := rootItems_spans hr h2
  have hle := h1.1 root (by simp)
  have hend : ∀ t ∈ flat hs, t.span.stop.offset ≤ (((hs.getLast?).map Header.endPos).getD root.span.stop).offset := by
    intro t htm
    cases hs with
    | nil => simp [flat] at htm
    | cons d r =>
      obtain ⟨l, g1, g2⟩ := flat_getLast d r
      have hl := tokSorted_last h2 g1 htm
      have : ((((d :: r).getLast?).map Header.endPos).getD root.span.stop) = (nodeSpan d r).stop := by
        rcases snoc_cases r with rfl | ⟨b, x, rfl⟩
        · simp [nodeSpan]
        · rw [← List.cons_append, List.getLast?_concat]; simp [nodeSpan]
      rw [this, g2]; exact hl
  refine ⟨.mk ?_ ?_ i2 i1, _, ht, ?_, ?_⟩
  · simp only [Ast.span]
    cases hs with
    | nil => simpa using hle
    | cons d r =>
      have := hend d.glyph (by simp [flat_cons, Header.toks])
      have h4 := h3 root (by simp) d.glyph (by simp [flat_cons, Header.toks])
      have h5 := h2.1 d.glyph (by simp [flat_cons, Header.toks])
      omega
  · intro k hk
    obtain ⟨⟨t, g1, g2⟩, ⟨u, g3, g4⟩⟩ := rootItems_span_tok hr k hk
    rw [g2, g4]
    have := h3 root (by simp) t g1
    exact ⟨by simp only [Ast.span]; omega, hend u g3⟩
  · intro a ha
    obtain ⟨d, hd, hst⟩ := each_mem (rootItems_stand hr) ha
    exact ⟨d.glyph, List.mem_cons_of_mem _ (List.mem_flatMap.2 ⟨d, hd, by simp [Header.toks]⟩),
      (rootItems_ok hr d hd).1, hst.1⟩
  · intro a ha
    rcases List.mem_cons.1 ha with rfl | ha
    · rcases snoc_cases hs with rfl | ⟨b, x, rfl⟩
      · exact ⟨root, by simp, by simp [hk, TokenKind.isWordLike], by simp [Ast.span]⟩
      · obtain ⟨t, g1, g2, g3⟩ := flat_last_word (h := x) (sub := []) (by
          intro d hd
          rw [List.mem_singleton.1 hd]
          exact rootItems_ok hr x (by simp))
        refine ⟨t, List.mem_cons_of_mem _ ?_, g2, by simpa [Ast.span, nodeSpan] using g3⟩
        rw [flat_append]
        exact List.mem_append_right _ g1
    · obtain ⟨t, g1, g2⟩ := rootItems_last_word hr a ha
      exact ⟨t, List.mem_cons_of_mem _ g1, g2⟩

end

/-! ## Counterexamples and non-vacuity -/
section
attribute [local instance] asciiUcd

/-- The counterexample of `C06_nested_false`. -/
private def c06ast : Ast :=
  .root ⟨⟨0, 1, 1⟩, ⟨38, 3, 12⟩⟩ c!"Foo"
    [.condition ⟨⟨4, 2, 1⟩, ⟨38, 3, 12⟩⟩ c!"when a" [.action ⟨⟨25, 3, 5⟩, ⟨38, 3, 12⟩⟩ c!"it x" []]]

/-- **C06 is false for nested branches**: `Foo / └── when a / ├── it x` is accepted although the last (and
only) child of the condition is drawn with `├`. -/
theorem C06_nested_false : ∃ (U : Ucd) (_ : @LawfulUcd U), ¬ ∀ (order : HashOrder) (text : Str) (toks : List Token)
    (ast : Ast), @parseOne U order text = .ok ast → tokenize text = .ok toks →
    ∀ a ∈ pre ast, DrawnRight toks a := by
  refine ⟨asciiUcd, lawful_ascii, ?_⟩
  intro h
  have hp : parseOne id c!"Foo\n└── when a\n    ├── it x" = .ok c06ast := by cbv
  have ht : (match tokenize c!"Foo\n└── when a\n    ├── it x" with
    | .ok ts => ts.any (fun t => t.span.start = ⟨25, 3, 5⟩ && t.lexeme = c!"├") | _ => false) = true := by cbv
  cases hk : tokenize c!"Foo\n└── when a\n    ├── it x" with
  | err e => rw [hk] at ht; cases ht
  | panic => rw [hk] at ht; cases ht
  | ok ts =>
    rw [hk] at ht
    simp only [List.any_eq_true, Bool.and_eq_true, decide_eq_true_eq] at ht
    obtain ⟨t, h1, h2, h3⟩ := ht
    have := (h id _ ts c06ast hp hk (.condition ⟨⟨4, 2, 1⟩, ⟨38, 3, 12⟩⟩ c!"when a"
      [.action ⟨⟨25, 3, 5⟩, ⟨38, 3, 12⟩⟩ c!"it x" []]) (by simp [c06ast, pre, preAll]) [] _ [] rfl).2 t h1 h2
    rw [h3] at this
    exact absurd this (by decide)

set_option maxRecDepth 4000 in
/-- An accepted text with nested conditions, several actions and descriptions: it meets the hypotheses of
C05–C10 and C56. -/
example : (match parseOne id
    c!"Foo\n├── it works\n│   └── quite well\n└── when a\n    ├── it x\n    └── given b\n        └── it y" with
    | .ok ast => (preAll (kids ast)).map colOf = [1, 5, 1, 5, 5, 9]
    | _ => False) := by cbv

/-- Rejected texts: misplaced glyphs at the top level, words outside a branch, an action above a condition. -/
example : (match parseOne id c!"Foo\n├── it x" with | .err (.parser _ e) => e.kind = .teeLastChild | _ => False) := by cbv
example : (match parseOne id c!"Foo bar\n└── it x" with | .err (.parser _ e) => e.kind = .wordUnexpected c!"bar" | _ => False) := by cbv
example : (match parseOne id c!"Foo\n└── it x\n    └── when y" with
    | .err (.parser _ e) => e.kind = .descriptionTokenUnexpected c!"when" | _ => False) := by cbv

end
end Bulloak
