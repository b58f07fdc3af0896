import Verif.Lemmas.Lex3
import Verif.Model.Ascii
/-!
# C01–C04: tokens
-/

namespace Bulloak
open Spec

section
variable [U : Ucd]

/-- The lexical decomposition used below exists and is unique for every text. -/
theorem C01_lexes_exists_unique (text : Str) :
    ∃ ps, Lexes text ps ∧ charsOf ps = text ∧ ∀ qs, Lexes text qs → qs = ps := by
  obtain ⟨ps, h⟩ := lexes_exists text
  exact ⟨ps, h, lexes_charsOf h, fun qs h' => lexes_unique h' h⟩

/-- **C01.** Tokens are exact, ordered, non-overlapping slices of the source with the right positions;
between them there are only skipped characters, breaks and comments. -/
theorem C01_tokens_are_slices {text : Str} {toks : List Token} (h : tokenize text = .ok toks) :
    Tiles [] text toks := by
  obtain ⟨ps, hl⟩ := lexes_exists text
  rw [tokenize_ok_tokensOf hl h]
  exact tiles_tokensOf hl []

/-- **C01**, pointwise reading: a token's lexeme is the slice of the text between its start offset and
the end of the character at its (inclusive) end offset. -/
theorem C01_token_slice {text : Str} {toks : List Token} (h : tokenize text = .ok toks) :
    ∀ t ∈ toks, ∃ pre post, text = pre ++ t.lexeme ++ post ∧ t.lexeme ≠ [] ∧
      t.span.start = posOf pre ∧ t.span.stop = posOf (pre ++ t.lexeme.dropLast) := by
  have key : ∀ {pre rest : Str} {toks : List Token}, Tiles pre rest toks → ∀ t ∈ toks, ∃ p q,
      pre ++ rest = p ++ t.lexeme ++ q ∧ t.lexeme ≠ [] ∧
      t.span.start = posOf p ∧ t.span.stop = posOf (p ++ t.lexeme.dropLast) := by
    intro pre rest toks h
    induction h with
    | done => intro t ht; simp at ht
    | @tok pre g rest t toks hg hne hs he _ ih =>
      intro t' ht'
      rcases List.mem_cons.1 ht' with rfl | ht'
      · exact ⟨pre ++ g, rest, by simp, hne, hs, he⟩
      · obtain ⟨p, q, h1, h2⟩ := ih t' ht'
        exact ⟨p, q, by rw [← h1]; simp, h2⟩
  intro t ht
  simpa using key (C01_tokens_are_slices h) t ht

/-- **C02.** Deleting a comment changes nothing but byte offsets: success, kinds, lexemes, lines and
columns (and, for a rejected text, the offending character and its line and column) stay the same. -/
theorem C02_comments_are_invisible {text : Str} {A B : List Piece} {s : Str}
    (h : Lexes text (A ++ .comment s :: B)) :
    text = charsOf A ++ (c!"//" ++ s) ++ charsOf B ∧
    lexView (tokenize text) = lexView (tokenize (charsOf A ++ charsOf B)) := by
  constructor
  · rw [← lexes_charsOf h]; simp [charsOf, Piece.chars]
  · have h' := lexes_remove h
    rw [charsOf_append] at h'
    rw [tokenize_eq_lexRun h, tokenize_eq_lexRun h']
    exact lexRun_remove A h

/-- **C03.** Every token is a branch glyph or a word; a word is a keyword exactly when the whole word
equals the keyword up to ASCII case. -/
theorem C03_keywords [LawfulUcd] {text : Str} {toks : List Token} (h : tokenize text = .ok toks) :
    ∀ t ∈ toks,
      (t.kind = .tee ↔ t.lexeme = c!"├") ∧ (t.kind = .corner ↔ t.lexeme = c!"└") ∧
      (t.kind = .when ↔ IsKeyword c!"when" t.lexeme) ∧
      (t.kind = .given ↔ IsKeyword c!"given" t.lexeme) ∧
      (t.kind = .it ↔ IsKeyword c!"it" t.lexeme) := by
  obtain ⟨ps, hl⟩ := lexes_exists text
  rw [tokenize_ok_tokensOf hl h]
  suffices hg : ∀ pre, ∀ t ∈ tokensOf pre ps,
      (t.kind = .tee ↔ t.lexeme = c!"├") ∧ (t.kind = .corner ↔ t.lexeme = c!"└") ∧
      (t.kind = .when ↔ IsKeyword c!"when" t.lexeme) ∧
      (t.kind = .given ↔ IsKeyword c!"given" t.lexeme) ∧
      (t.kind = .it ↔ IsKeyword c!"it" t.lexeme) from hg []
  clear h
  induction hl with
  | nil => intro pre t ht; simp [tokensOf] at ht
  | skip _ _ ih => exact fun pre => ih _
  | brk _ _ ih => exact fun pre => ih _
  | comment _ _ _ ih => exact fun pre => ih _
  | tee _ ih =>
    intro pre t ht
    rcases List.mem_cons.1 ht with rfl | ht
    · simp [IsKeyword]
    · exact ih _ t ht
  | corner _ ih =>
    intro pre t ht
    rcases List.mem_cons.1 ht with rfl | ht
    · simp [IsKeyword]
    · exact ih _ t ht
  | @word c s r ps hc _ _ _ ih =>
    intro pre t ht
    rcases List.mem_cons.1 ht with rfl | ht
    · have h1 : c :: s ≠ c!"├" := by intro h; simp at h; exact hc.2.2.1 h.1
      have h2 : c :: s ≠ c!"└" := by intro h; simp at h; exact hc.2.2.2.1 h.1
      simp only [wordKind_eq, IsKeyword, h1, h2, iff_false]
      unfold kindOfWord
      by_cases e1 : (c :: s).map asciiLower = c!"when"
      · simp [e1]
      · by_cases e2 : (c :: s).map asciiLower = c!"it"
        · simp [e2]
        · by_cases e3 : (c :: s).map asciiLower = c!"given"
          · simp [e3]
          · simp only [e1, e2, e3, if_false]; simp
    · exact ih _ t ht

/-- **C04.** Tokenizing fails exactly when some condition title contains a disallowed character; the
error is then about the first such character, at its exact position.  It never panics. -/
theorem C04_title_errors [LawfulUcd] {text : Str} {ps : List Piece} (hl : Lexes text ps) :
    ((∃ toks, tokenize text = .ok toks) ↔ ¬ ∃ pre x, BadTitleChar ps pre x) ∧
    (∀ e, tokenize text = .err e →
      ∃ pre, BadTitleChar ps pre e.char ∧ e.span = Span.splat (posOf pre) ∧
        ∀ pre' x', BadTitleChar ps pre' x' → pre.length ≤ pre'.length) ∧
    tokenize text ≠ .panic := by
  have hs := lexRun_spec ps [] false (by simp [not_inTitle_nil])
  rw [tokenize_eq_lexRun hl]
  simp only [tokensOf, charsOf, List.flatMap_nil, List.nil_append] at hs
  revert hs
  cases lexRun [] false [] ps with
  | ok toks =>
    rintro ⟨_, hno⟩
    refine ⟨⟨fun _ => ?_, fun _ => ⟨toks, rfl⟩⟩, (by intro e he; cases he), by simp⟩
    rintro ⟨pre, x, P, a, b, C, h1, h2, h3, h4⟩
    exact h3 ((titleChar_iff x).2 (hno P _ C h1 h2 x (by simp)))
  | panic => exact False.elim
  | err e =>
    rintro ⟨Q, w, C, h1, h2, ⟨b, h3⟩, h4, h5, h6⟩
    have hbad : BadTitleChar ps (charsOf Q ++ w.takeWhile isValidIdentChar) e.char :=
      ⟨Q, _, b, C, by rw [← h3]; exact h1, h2, by rw [titleChar_iff]; simp [h4], rfl⟩
    refine ⟨⟨fun ⟨t, ht⟩ => (by cases ht), fun h => absurd ⟨_, _, hbad⟩ h⟩, ?_, by simp⟩
    intro e' he'
    cases he'
    refine ⟨_, hbad, h5, ?_⟩
    rintro pre' x' ⟨P, a, b', C', g1, g2, g3, rfl⟩
    rw [titleChar_iff] at g3
    rcases Nat.lt_trichotomy P.length Q.length with hlt | heq | hgt
    · exact absurd (h6 P _ C' g1 g2 hlt x' (by simp)) g3
    · have hQ : Q ++ .word w :: C = P ++ .word (a ++ x' :: b') :: C' := by rw [← h1, g1]
      obtain ⟨rfl, hr⟩ := List.append_inj hQ heq.symm
      simp at hr
      rw [hr.1]
      simp only [charsOf, List.length_append, Nat.add_le_add_iff_left]
      rw [List.takeWhile_append]
      split
      · rename_i hh
        rw [List.takeWhile_cons_of_neg (by simpa using g3)]
        simp
      · exact (List.takeWhile_sublist _).length_le
    · have hQ : Q ++ .word w :: C = P ++ .word (a ++ x' :: b') :: C' := by rw [← h1, g1]
      have hP : P = Q ++ .word w :: (P.drop (Q.length + 1)) := by
        have e1 : P.take (Q.length + 1) = Q ++ [.word w] := by
          have := congrArg (List.take (Q.length + 1)) hQ
          rw [List.take_append_of_le_length (l₁ := P) (by omega)] at this
          rw [← this, List.take_append]
          simp
          exact List.take_of_length_le (by omega)
        conv => lhs; rw [← List.take_append_drop (Q.length + 1) P, e1]
        simp
      rw [hP]
      have : (w.takeWhile isValidIdentChar).length ≤ w.length := (List.takeWhile_sublist _).length_le
      simp [charsOf, Piece.chars] at this ⊢
      omega

end

/-! ## Non-vacuity -/
section
attribute [local instance] asciiUcd

/-- A successful tokenization with glyphs, keywords, words and a comment. -/
example : (match tokenize c!"Foo // c\n├── When x y // z\n└── it works" with
    | .ok ts => ts.map (·.kind) = [.word, .tee, .when, .word, .word, .corner, .it, .word]
    | _ => False) := by cbv

/-- A text whose decomposition contains a comment, as in `C02_comments_are_invisible`. -/
example : Lexes c!"a //b\nc" ([.word c!"a", .skip ' '] ++ .comment c!"b" :: [.brk '\n', .word c!"c"]) := by
  have h0 : Lexes c!"c" [.word c!"c"] :=
    .word (s := []) ⟨by decide, by decide, by decide, by decide, by simp⟩ (by simp) (Or.inl rfl) .nil
  have h1 : Lexes c!"\nc" [.brk '\n', .word c!"c"] := .brk (Or.inl rfl) h0
  have h2 := Lexes.comment (s := c!"b") (by decide) (Or.inr ⟨_, rfl⟩) h1
  exact .word (s := []) ⟨by decide, by decide, by decide, by decide, by simp⟩ (by simp)
    (Or.inr ⟨' ', _, rfl, by decide⟩) (.skip (Or.inl rfl) h2)

/-- A rejected text: the error is about `!` in the second title. -/
example : (match tokenize c!"Foo\n├── it ok!\n└── when a b!c" with
    | .err e => e.char = '!' ∧ e.span.start = ⟨39, 3, 13⟩
    | _ => False) := by cbv

end
end Bulloak
