import Verif.Lemmas.ErrorSpan
import Verif.Model.Report
import Verif.Props.Split
import Verif.Lemmas.Sol2
/-!
# C53: error messages show where the error is
-/

set_option linter.unusedSectionVars false

namespace Bulloak
open Spec

theorem posOf_add (a b : Str) : (posOf (a ++ b)).offset = (posOf a).offset + (b.map Char.utf8Size).sum := by
  simp [posOf]

theorem offset_zero_iff {text span pre mid} (h : SpanOf text span pre mid) :
    (span.start.offset = span.stop.offset ∧ span.start.offset = 0) ↔ (pre = [] ∧ mid.length = 1) := by
  obtain ⟨hne, _, h1, h2⟩ := h
  rw [h1, h2, posOf_add]
  have e1 : (posOf pre).offset = 0 ↔ pre = [] := by simp [posOf, byteLen_pos]
  have e2 : (mid.dropLast.map Char.utf8Size).sum = 0 ↔ mid.length = 1 := by
    rw [byteLen_pos]
    cases mid with
    | nil => exact absurd rfl hne
    | cons c r => cases r <;> simp
  rw [e1]
  constructor
  · rintro ⟨a, b⟩; exact ⟨b, e2.1 (by omega)⟩
  · rintro ⟨a, b⟩; exact ⟨by have := e2.2 b; omega, a⟩

/-- **C53.** The message for a span of the text which starts with a visible character and does not end in a carriage
return: the line of the text and carets exactly under the span when it lies within one line, starting under its first character
otherwise; followed by its line and column.  Only for a single character at the very start of the text there is no excerpt. -/
theorem C53_message {text kind : Str} {span : Span} {pre mid : Str} (h : SpanOf text span pre mid)
    (hf : ∀ c ∈ mid.head?, c ≠ '\n' ∧ c ≠ '\r') (hl : mid.getLast? ≠ some '\r') :
    Message text kind pre mid (formatError text kind span) := by
  constructor
  · intro h0
    unfold formatError
    rw [if_pos ((offset_zero_iff h).2 h0)]
    simp [heading]
  · intro h0
    have h0' := fun x => h0 ((offset_zero_iff h).1 x)
    obtain ⟨hne, ⟨post, rfl⟩, h1, h2⟩ := h
    rw [formatError_excerpt h0']
    have hp : c!"--- (line " ++ natToStr span.start.line ++ c!", column " ++ natToStr span.start.column ++ c!") ---\n" = place pre := by
      rw [h1]; rfl
    constructor
    · cases mid with
      | nil => exact absurd rfl hne
      | cons c r =>
        have hc := hf c rfl
        obtain ⟨b, hb, hn⟩ := notate_at (pre := pre) (mid := [c]) (post := r ++ post) (span := span) (by simp)
          (by simpa using Ne.symm hc.1) (by simpa using hc.2) h1
        refine ⟨c :: r ++ post, c :: b, max 1 (span.stop.column - span.start.column + 1), by simp, ?_, by omega, ?_⟩
        · obtain ⟨hb1, hb2⟩ := hb
          refine ⟨by simp [hb1, Ne.symm hc.1], ?_⟩
          rcases hb2 with hb2 | ⟨r', ⟨hb2, hb3⟩ | hb2⟩
          · left; simp [hb2]
          · right
            refine ⟨r', Or.inl ⟨by simp [hb2], ?_⟩⟩
            cases b with
            | nil => simpa using hc.2
            | cons d b => simpa using hb3
          · right; exact ⟨r', Or.inr (by simp [hb2])⟩
        · have e : pre ++ [c] ++ (r ++ post) = pre ++ c :: r ++ post := by simp
          rw [e] at hn
          rw [hn, ← hp]
          simp
    · intro hm
      obtain ⟨b, hb, hn⟩ := notate_at (pre := pre) (mid := mid) (post := post) (span := span) hne hm hl h1
      refine ⟨post, b, rfl, hb, ?_⟩
      have hcol : max 1 (span.stop.column - span.start.column + 1) = mid.length := by
        have hd : '\n' ∉ mid.dropLast := fun hx => hm (List.dropLast_subset _ hx)
        rw [h1, h2]
        simp only [posOf]
        rw [lastLine_append hd]
        have : 0 < mid.length := List.length_pos_iff.2 hne
        simp
        omega
      rw [hn, hcol, ← hp]
      simp

/-! ## Tokens as spans -/

theorem tiles_span {pre rest : Str} {toks : List Token} (h : Tiles pre rest toks) : ∀ t ∈ toks, ∃ g,
    SpanOf (pre ++ rest) t.span (pre ++ g) t.lexeme := by
  induction h with
  | done => intro t ht; cases ht
  | @tok pre g rest t toks hg hne h1 h2 ht ih =>
    intro u hu
    rcases List.mem_cons.1 hu with rfl | hu
    · exact ⟨g, hne, ⟨rest, by simp⟩, h1, h2⟩
    · obtain ⟨g', hs⟩ := ih u hu
      exact ⟨g ++ t.lexeme ++ g', by simpa [List.append_assoc] using hs⟩

/-- From the start of a token to the end of a later one. -/
theorem tiles_between {pre rest : Str} {toks A B : List Token} {t u : Token} (h : Tiles pre rest toks)
    (ht : toks = A ++ t :: B) (hu : u ∈ B) : ∃ p m, SpanOf (pre ++ rest) ⟨t.span.start, u.span.stop⟩ p (t.lexeme ++ m ++ u.lexeme) := by
  induction h generalizing A with
  | done => simp at ht
  | @tok pre g rest v toks hg hne h1 h2 htl ih =>
    cases A with
    | nil =>
      simp only [List.nil_append, List.cons.injEq] at ht
      obtain ⟨rfl, rfl⟩ := ht
      obtain ⟨g', hne', ⟨post, hp⟩, h1', h2'⟩ := tiles_span htl u hu
      refine ⟨pre ++ g, g', by simp [hne], ⟨post, by simpa [List.append_assoc] using hp⟩, h1, ?_⟩
      simp only
      rw [h2', List.dropLast_append_of_ne_nil hne']
      simp [List.append_assoc]
    | cons a A =>
      simp only [List.cons_append, List.cons.injEq] at ht
      obtain ⟨p, m, hs⟩ := ih ht.2
      exact ⟨p, m, by simpa [List.append_assoc] using hs⟩

section
variable [U : Ucd]

theorem word_clean {r : Str} {ps : List Piece} (h : Lexes r ps) {w : Str} (hw : Piece.word w ∈ ps) :
    ∀ c ∈ w, c ≠ '\n' ∧ c ≠ '\r' := by
  obtain ⟨c, s, rfl, _, hb, hs⟩ := lexes_word_chars h w hw
  intro d hd
  rcases List.mem_cons.1 hd with rfl | hd
  · exact ⟨fun e => hb (Or.inl e), fun e => hb (Or.inr (Or.inr e))⟩
  · have := hs d hd
    constructor <;> (rintro rfl; revert this; decide)

theorem tokensOf_clean {r : Str} {ps : List Piece} (h : Lexes r ps) : ∀ pre, ∀ t ∈ tokensOf pre ps,
    ∀ c ∈ t.lexeme, c ≠ '\n' ∧ c ≠ '\r' := by
  intro pre t ht
  rcases tokensOf_lexeme ps pre t ht with e | e | e
  · rw [e]; simp
  · rw [e]; simp
  · exact word_clean h e

theorem tok_clean {text : Str} {toks : List Token} (h : tokenize text = .ok toks) {t : Token} (ht : t ∈ toks) :
    ∀ c ∈ t.lexeme, c ≠ '\n' ∧ c ≠ '\r' := by
  obtain ⟨ps, hl⟩ := lexes_exists text
  rw [tokenize_ok_tokensOf hl h] at ht
  exact tokensOf_clean hl [] t ht

theorem tok_span {text : Str} {toks : List Token} (h : tokenize text = .ok toks) {t : Token} (ht : t ∈ toks) :
    ∃ pre, SpanOf text t.span pre t.lexeme := by
  obtain ⟨ps, hl⟩ := lexes_exists text
  rw [tokenize_ok_tokensOf hl h] at ht
  obtain ⟨g, hg⟩ := tiles_span (tiles_tokensOf hl []) t ht
  exact ⟨[] ++ g, hg⟩

/-- **C53**, tokenizer: the message is about the first character not allowed in a condition title, in the line of that
title. -/
theorem C53_tokenizer [LawfulUcd] {text : Str} {ps : List Piece} {e : TokError} (hl : Lexes text ps) (h : tokenize text = .err e) :
    ∃ pre, BadTitleChar ps pre e.char ∧ (∀ pre' x', BadTitleChar ps pre' x' → pre.length ≤ pre'.length) ∧
      Renders text (c!"invalid identifier: " ++ [e.char]) pre [e.char] (TranslateError.syntax (.tokenizer text e)).show := by
  obtain ⟨pre, hb, hs, hmin⟩ := (C04_title_errors hl).2.1 e h
  refine ⟨pre, hb, hmin, ?_⟩
  obtain ⟨P, a, b, C, rfl, hin, hx, rfl⟩ := hb
  have htext : text = charsOf P ++ a ++ [e.char] ++ (b ++ charsOf C) := by
    rw [← lexes_charsOf hl]
    simp [charsOf, Piece.chars]
  have hpre : charsOf P ++ a ≠ [] := by
    obtain ⟨A, br, g, kw, B, rfl, hbr, _⟩ := hin
    cases br <;> first | (simp [Piece.isBranch] at hbr; done) | simp [charsOf, Piece.chars]
  have hclean : e.char ≠ '\n' ∧ e.char ≠ '\r' := word_clean hl (w := a ++ e.char :: b) (by simp) _ (by simp)
  have hspan : SpanOf text e.span (charsOf P ++ a) [e.char] :=
    ⟨by simp, ⟨_, htext⟩, by rw [hs]; rfl, by rw [hs]; simp [Span.splat]⟩
  have := (C53_message (kind := e.kindText) hspan (by simpa using hclean) (by simpa using hclean.2)).2 (by simp [hpre])
  exact this.2 (by simpa using Ne.symm hclean.1)

theorem message_of_clean {text kind : Str} {span : Span} {pre mid : Str} (h : SpanOf text span pre mid)
    (hc : ∀ c ∈ mid, c ≠ '\n' ∧ c ≠ '\r') : Message text kind pre mid (formatError text kind span) := by
  refine C53_message h (fun c hm => hc c (List.mem_of_mem_head? hm)) fun e => ?_
  exact (hc _ (List.mem_of_getLast? e)).2 rfl

/-- **C53**, parser: the message for a text without tokens has no excerpt; all others are about a token of the text that
fits the kind of the error. -/
theorem C53_parser [LawfulUcd] {text : Str} {toks : List Token} {e : ParseError} (ht : tokenize text = .ok toks)
    (h : parseTokens toks = .err e) :
    (toks = [] ∧ e.kind = .treeEmpty ∧ (TranslateError.syntax (.parser text e)).show = heading c!"found an empty tree") ∨
    ∃ t ∈ toks, Blames e.kind t ∧ ∃ pre, SpanOf text t.span pre t.lexeme ∧
      Message text e.kind.text pre t.lexeme (TranslateError.syntax (.parser text e)).show := by
  rcases parseTokens_points h with ⟨h1, rfl⟩ | ⟨t, hm, hb, hs⟩
  · left
    refine ⟨h1, rfl, ?_⟩
    simp [TranslateError.show, formatError, Span.default, heading, ParseErrorKind.text, Position.start]
  · right
    obtain ⟨pre, hsp⟩ := tok_span ht hm
    refine ⟨t, hm, hb, pre, hsp, ?_⟩
    have hes : SpanOf text e.span pre t.lexeme := by
      rcases hs with hs | ⟨hk, hs⟩
      · rw [hs]; exact hsp
      · have hlex : t.lexeme.dropLast = [] := by
          have hk' := C03_keywords ht t hm
          rcases (by cases hh : t.kind <;> rw [hh] at hk <;> simp [TokenKind.isBranch] at hk ⊢ : t.kind = .tee ∨ t.kind = .corner) with hh | hh
          · rw [hk'.1.1 hh]; rfl
          · rw [hk'.2.1.1 hh]; rfl
        obtain ⟨h1, h2, h3, h4⟩ := hsp
        rw [hs]
        refine ⟨h1, h2, ?_, h4⟩
        rw [hlex, List.append_nil] at h4
        exact h4
    exact message_of_clean hes (tok_clean ht hm)

/-- **C53**, wording: the first line of the message quotes the word or glyph the message is about. -/
theorem C53_wording [LawfulUcd] {text : Str} {toks : List Token} {e : ParseError} (ht : tokenize text = .ok toks)
    (h : parseTokens toks = .err e) (hne : toks ≠ []) :
    ∃ t ∈ toks, (∃ pre, SpanOf text t.span pre t.lexeme ∧ Message text e.kind.text pre t.lexeme (TranslateError.syntax (.parser text e)).show) ∧
      Wording t.lexeme e.kind.text := by
  rcases C53_parser ht h with ⟨h1, _⟩ | ⟨t, hm, hb, pre, hs, hmsg⟩
  · exact absurd h1 hne
  · refine ⟨t, hm, ⟨pre, hs, hmsg⟩, ?_⟩
    obtain ⟨k1, k2, k3, k4, k5⟩ := C03_keywords ht t hm
    obtain ⟨k, sp⟩ := e
    cases k with
    | tokenUnexpected l => obtain ⟨rfl, _⟩ := hb; exact .token
    | descriptionTokenUnexpected l => obtain ⟨rfl, _⟩ := hb; exact .description
    | wordUnexpected l => obtain ⟨rfl, _⟩ := hb; exact .word
    | whenUnexpected => exact .keyword (kw := c!"when") (k3.1 hb)
    | givenUnexpected => exact .keyword (kw := c!"given") (k4.1 hb)
    | itUnexpected => exact .keyword (kw := c!"it") (k5.1 hb)
    | eofUnexpected => exact .ends (hb.imp k1.1 k2.1)
    | treeEmpty => exact hb.elim
    | titleMissing => exact .untitled (hb.imp k3.1 k4.1)
    | treeRootless =>
      refine .rootless ?_
      have hb : t.kind ≠ .word := hb
      cases hk : t.kind with
      | word => exact absurd hk hb
      | tee => exact .inl (k1.1 hk)
      | corner => exact .inr (.inl (k2.1 hk))
      | when => exact .inr (.inr (.inl (k3.1 hk)))
      | given => exact .inr (.inr (.inr (.inl (k4.1 hk))))
      | it => exact .inr (.inr (.inr (.inr (k5.1 hk))))
    | cornerNotLastChild => exact .corner (k2.1 hb)
    | teeLastChild => exact .tee (k1.1 hb)

/-! ## Semantic errors -/

theorem items_nil_iff {c hs} (h : Items c hs []) : hs = [] := by cases h; rfl

theorem items_empty {c hs asts} (h : Items c hs asts) : ∀ a ∈ preAll asts, a.isCondition = true → kids a = [] →
    ∃ d ∈ hs, Stands a d ∧ a.span = ⟨d.glyph.span.start, d.endPos⟩ := by
  induction h with
  | nil => intro a ha; simp [preAll] at ha
  | @condition c h sub ks rest asts hok hlt hc hm hi he hr ih1 ih2 =>
    intro a ha hcond hk
    simp only [preAll, pre, List.cons_append, List.mem_cons, List.mem_append] at ha
    rcases ha with rfl | ha | ha
    · have : ks = [] := hk
      subst this
      have := items_nil_iff hi
      subst this
      exact ⟨h, by simp, ⟨rfl, hc, hm, rfl⟩, rfl⟩
    · obtain ⟨d, hd, h1⟩ := ih1 a ha hcond hk
      exact ⟨d, by simp [hd], h1⟩
    · obtain ⟨d, hd, h1⟩ := ih2 a ha hcond hk
      exact ⟨d, by simp [hd], h1⟩
  | @action c h sub rest asts hok hlt ha' hs he hr ih =>
    intro a ha hcond hk
    simp only [preAll, pre, List.cons_append, List.mem_cons, List.mem_append] at ha
    rcases ha with rfl | ha | ha
    · cases hcond
    · obtain ⟨d, hd, hst⟩ := each_mem (descs_stand h sub hs) ha
      cases a with
      | condition s t cs =>
        have := hst.2.1
        simp [Header.isCondition, (hs d hd).2.2] at this
      | root => cases hcond
      | action => cases hcond
      | description => cases hcond
    · obtain ⟨d, hd, h1⟩ := ih a ha hcond hk
      exact ⟨d, by simp [hd], h1⟩

theorem rootItems_empty {hs asts} (h : RootItems hs asts) : ∀ a ∈ preAll asts, a.isCondition = true → kids a = [] →
    ∃ d ∈ hs, Stands a d ∧ a.span = ⟨d.glyph.span.start, d.endPos⟩ := by
  induction h with
  | nil => intro a ha; simp [preAll] at ha
  | @item h sub rest ast asts hi _ _ _ ih =>
    intro a ha hcond hk
    simp only [preAll, List.mem_append] at ha
    rcases ha with ha | ha
    · obtain ⟨d, hd, h1⟩ := items_empty hi a (by simpa [preAll] using ha) hcond hk
      refine ⟨d, ?_, h1⟩
      rw [← List.cons_append]; exact List.mem_append_left _ hd
    · obtain ⟨d, hd, h1⟩ := ih a ha hcond hk
      exact ⟨d, by simp [hd], h1⟩

theorem preAll_mem {asts : List Ast} {a : Ast} (h : a ∈ asts) : a ∈ preAll asts := by
  induction asts with
  | nil => cases h
  | cons b bs ih =>
    simp only [preAll, List.mem_append]
    rcases List.mem_cons.1 h with rfl | h
    · left; cases a <;> simp [pre]
    · exact Or.inr (ih h)

theorem preAll_single_mem {asts : List Ast} {a b : Ast} (h : a ∈ asts) (hb : b ∈ preAll [a]) : b ∈ preAll asts := by
  induction asts with
  | nil => cases h
  | cons c cs ih =>
    simp only [preAll, List.mem_append, List.append_nil] at hb ⊢
    rcases List.mem_cons.1 h with rfl | h
    · exact Or.inl hb
    · exact Or.inr (ih h)

theorem named_mem {asts : List Ast} {a : Ast} (h : a ∈ named asts) : a ∈ preAll asts := by
  obtain ⟨b, hb, h1⟩ := List.mem_flatMap.1 h
  split at h1
  · rw [List.mem_singleton.1 h1]; exact preAll_mem hb
  · exact preAll_single_mem hb (List.mem_filter.1 h1).1

theorem flat_split {hs : List Header} {d : Header} (h : d ∈ hs) : ∃ A B, flat hs = A ++ d.toks ++ B := by
  obtain ⟨X, Y, rfl⟩ := List.append_of_mem h
  exact ⟨flat X, flat Y, by simp [flat]⟩

/-- What a semantic error is about: the last character of the root's name; a condition from its glyph to its last word; the
glyph of the first of the nodes with the same identifier. -/
def Culprit (toks : List Token) (cs : List Ast) (text : Str) (k : SemErrorKind) (pre mid : Str) : Prop :=
  match k with
  | .treeEmpty => ∃ root p, toks = [root] ∧ SpanOf text root.span p root.lexeme ∧ pre ++ mid = p ++ root.lexeme ∧ mid.length = 1
  | .conditionEmpty => ∃ c ∈ conditionsOf cs, kids c = [] ∧ ∃ d : Header, d.toks <:+: toks ∧ Stands c d ∧
      ∃ m l, d.words.getLast? = some l ∧ mid = d.glyph.lexeme ++ m ++ l.lexeme
  | .identifierDuplicated spans => ∃ a ∈ named cs, spans = placesOf cs (identOf a) ∧ spans.head? = some a.span ∧ 2 ≤ spans.length ∧
      ∃ d : Header, d.toks <:+: toks ∧ Stands a d ∧ mid = d.glyph.lexeme
  | .nodeUnexpected => False

/-- **C53**, semantic analysis: every error of a rejected tree is shown with the excerpt of what it is about. -/
theorem C53_semantics [LawfulUcd] {order : HashOrder} (ho : ∀ l, (order l).Perm l) {text : Str} {toks : List Token} {s : Span} {n : Str}
    {cs : List Ast} {es : List SemError} (ht : tokenize text = .ok toks) (hp : parseTokens toks = .ok (.root s n cs))
    (he : parseOne order text = .err (.semantics text es)) :
    (∃ outs, (TranslateError.syntax (.semantics text es)).show = outs.flatten ∧ Each (fun e out => ∃ pre mid,
      SpanOf text e.span pre mid ∧ Culprit toks cs text e.kind pre mid ∧ Message text e.kind.text pre mid out) es outs) := by
  have hperm : es.Perm (complaints s cs) := by
    rcases C15_all_errors ho ht hp with ⟨_, h⟩ | ⟨_, es', h, h'⟩
    · rw [he] at h; cases h
    · rw [he] at h; cases h; exact h'
  have key : ∀ e ∈ es, ∃ pre mid, SpanOf text e.span pre mid ∧ Culprit toks cs text e.kind pre mid ∧
      Message text e.kind.text pre mid (formatError text e.kind.text e.span) := by
    obtain ⟨root, hs, kids', rfl, hk, hr, hast⟩ := (parseTokens_iff (tokenize_col ht) _).1 hp
    cases hast
    have htile := C01_tokens_are_slices ht
    intro e hm
    have hm := hperm.mem_iff.1 hm
    simp only [complaints, List.mem_append] at hm
    rcases hm with (hm | hm) | hm
    · split at hm
      · rename_i hnil
        subst hnil
        have hh : hs = [] := by cases hr; rfl
        subst hh
        rw [List.mem_singleton] at hm
        subst hm
        obtain ⟨p, hsp⟩ := tok_span ht (t := root) (by simp)
        obtain ⟨h1, ⟨post, h2⟩, h3, h4⟩ := id hsp
        obtain ⟨w, c, hw⟩ : ∃ w c, root.lexeme = w ++ [c] := ⟨_, _, (List.dropLast_concat_getLast h1).symm⟩
        have hclean := tok_clean ht (t := root) (by simp) c (by simp [hw])
        rw [hw, List.dropLast_concat] at h4
        have hso : SpanOf text ⟨root.span.stop, root.span.stop⟩ (p ++ w) [c] :=
          ⟨by simp, ⟨post, by rw [h2, hw]; simp⟩, h4, by simpa using h4⟩
        refine ⟨p ++ w, [c], hso, ⟨root, p, by simp [flat], hsp, by simp [hw], rfl⟩, ?_⟩
        exact message_of_clean hso (by simpa using hclean)
      · cases hm
    · obtain ⟨c, hc, rfl⟩ := List.mem_map.1 hm
      obtain ⟨hc1, hc2⟩ := List.mem_filter.1 hc
      obtain ⟨hc3, hc4⟩ := List.mem_filter.1 hc1
      have hkids : kids c = [] := by simpa using hc2
      obtain ⟨d, hd, hst, hspan⟩ := rootItems_empty hr c hc3 hc4 hkids
      obtain ⟨A, B, hflat⟩ := flat_split hd
      obtain ⟨l, hl1, hl2⟩ := words_getLast d
      have hlm : l ∈ d.words := List.mem_of_getLast? hl1
      have hsplit : root :: flat hs = (root :: A) ++ d.glyph :: (d.words ++ B) := by
        rw [hflat]; simp [Header.toks, Header.words]
      obtain ⟨p, m, hso⟩ := tiles_between htile hsplit (u := l) (List.mem_append_left _ hlm)
      rw [List.nil_append, ← hl2, ← hspan] at hso
      have hg : d.glyph ∈ root :: flat hs := by rw [hsplit]; simp
      have hl : l ∈ root :: flat hs := by rw [hsplit]; simp [hlm]
      refine ⟨p, _, hso, ⟨c, hc1, hkids, d, ⟨root :: A, B, by rw [hflat]; simp⟩, hst, m, l, hl1, rfl⟩, ?_⟩
      have hgne : d.glyph.lexeme ≠ [] := (tok_span ht hg).choose_spec.1
      have hlne : l.lexeme ≠ [] := (tok_span ht hl).choose_spec.1
      refine C53_message hso ?_ ?_
      · intro x hx
        cases hgl : d.glyph.lexeme with
        | nil => exact absurd hgl hgne
        | cons y ys =>
          rw [hgl] at hx
          simp only [List.cons_append, List.head?_cons, Option.mem_def, Option.some.injEq] at hx
          exact tok_clean ht hg x (by rw [hgl, hx]; simp)
      · intro hx
        rw [List.getLast?_append, List.getLast?_eq_some_getLast hlne, Option.some_or] at hx
        have := (tok_clean ht hl _ (List.getLast_mem hlne)).2
        exact this (by simpa using hx)
    · obtain ⟨i, hi, hm⟩ := List.mem_flatMap.1 hm
      unfold dupComplaint at hm
      split at hm
      · rename_i p q r hpl
        rw [List.mem_singleton] at hm
        subst hm
        have hp1 : p ∈ placesOf cs i := by rw [hpl]; simp
        unfold placesOf at hpl
        cases hfl : (named cs).filter (fun a => identOf a = i) with
        | nil => rw [hfl] at hpl; cases hpl
        | cons a as =>
          rw [hfl, List.map_cons, List.cons.injEq] at hpl
          have ham : a ∈ (named cs).filter (fun a => identOf a = i) := by rw [hfl]; simp
          obtain ⟨ha1, ha2⟩ := List.mem_filter.1 ham
          have ha2 : identOf a = i := by simpa using ha2
          obtain ⟨d, hd, hst⟩ := each_mem (rootItems_stand hr) (named_mem ha1)
          obtain ⟨A, B, hflat⟩ := flat_split hd
          have hg : d.glyph ∈ root :: flat hs := by rw [hflat]; simp [Header.toks]
          obtain ⟨pre, h1, h2, h3, h4⟩ := tok_span ht hg
          have hdok : d.glyph.kind.isBranch = true := (rootItems_ok hr d hd).1
          have hlex : d.glyph.lexeme.dropLast = [] := by
            have hk' := C03_keywords ht _ hg
            rcases (by cases hh : d.glyph.kind <;> rw [hh] at hdok <;> simp [TokenKind.isBranch] at hdok ⊢ : d.glyph.kind = .tee ∨ d.glyph.kind = .corner) with hh | hh
            · rw [hk'.1.1 hh]; rfl
            · rw [hk'.2.1.1 hh]; rfl
          have hps : p.start = posOf pre := by rw [← hpl.1, hst.1, h3]
          have hso : SpanOf text ⟨p.start, p.start⟩ pre d.glyph.lexeme := ⟨h1, h2, hps, by rw [hlex, List.append_nil]; exact hps⟩
          refine ⟨pre, _, hso, ⟨a, ha1, ?_, ?_, by simp, d, ⟨root :: A, B, by rw [hflat]; simp⟩, hst, rfl⟩, ?_⟩
          · rw [ha2, placesOf, hfl, List.map_cons, hpl.1, hpl.2]
          · simp [hpl.1]
          · exact message_of_clean hso (tok_clean ht hg)
      · cases hm
  clear hperm he
  induction es with
  | nil => exact ⟨[], rfl, .nil⟩
  | cons e es ih =>
    obtain ⟨outs, h1, h2⟩ := ih (fun x hx => key x (List.mem_cons_of_mem _ hx))
    refine ⟨formatError text e.kind.text e.span :: outs, ?_, .cons (key e (by simp)) h2⟩
    simp only [TranslateError.show, List.flatMap_cons, List.flatten_cons] at h1 ⊢
    rw [h1]

end

/-! ## Non-vacuity -/
section
attribute [local instance] asciiUcd

/-- The message for a rejected text, without the dotted line. -/
private def messageOf (text : Str) : Option Str :=
  match parseOne id text with
  | .err e => some ((TranslateError.syntax e).show.filter (· ≠ '•'))
  | _ => none

set_option maxRecDepth 8000 in
/-- A bad character in a title. -/
example : messageOf c!"Foo\n└── when a,b\n    └── it x" =
    some c!"\nbulloak error: invalid identifier: ,\n\n└── when a,b\n          ^\n\n--- (line 2, column 11) ---\n" := by cbv

set_option maxRecDepth 8000 in
/-- An unexpected word after a glyph. -/
example : messageOf c!"Foo\n├── it x\n└── bar baz\r\n" =
    some c!"\nbulloak error: unexpected token 'bar'\n\n└── bar baz\n    ^^^\n\n--- (line 3, column 5) ---\n" := by cbv

set_option maxRecDepth 8000 in
/-- Two semantic errors: an empty condition and an identifier used twice. -/
example : messageOf c!"Foo\n├── it x\n├── when ab\n└── it X" =
    some c!"\nbulloak error: found a condition with no children\n\n├── when ab\n^^^^^^^^^^^\n\n--- (line 3, column 1) ---\n\nbulloak error: found an identifier more than once in lines: 2, 4\n\n├── it x\n^\n\n--- (line 2, column 1) ---\n" := by cbv

/-- No excerpt for a single character at the start of the text. -/
example : messageOf c!"├" = some c!"\nbulloak error: missing a root" := by cbv

/-- No tokens. -/
example : messageOf c!"// only a comment" = some c!"\nbulloak error: found an empty tree" := by cbv

end
end Bulloak
