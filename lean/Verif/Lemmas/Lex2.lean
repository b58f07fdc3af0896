import Verif.Lemmas.Lex
import Verif.Lemmas.ListExtra
/-! # Lemmas about the lexical specification -/

set_option linter.unusedSectionVars false

namespace Bulloak
open Spec

theorem takeWhile_ne_mem (s : Str) : '\n' ∉ s.takeWhile (· ≠ '\n') := by
  intro h
  have := (List.all_eq_true.1 (List.all_takeWhile (p := fun x : Char => decide (x ≠ '\n')))) _ h
  simp at this

theorem atLineEnd_dropWhile (s : Str) : AtLineEnd (s.dropWhile (· ≠ '\n')) := by
  induction s with
  | nil => exact Or.inl rfl
  | cons c s ih =>
    by_cases h : c = '\n'
    · subst h; right; exact ⟨s, by simp⟩
    · rw [List.dropWhile_cons_of_pos (by simpa using h)]; exact ih

theorem atWordEnd_dropWhile (s : Str) : AtWordEnd (s.dropWhile (fun c => !isWs c)) := by
  induction s with
  | nil => exact Or.inl rfl
  | cons c s ih =>
    by_cases h : isWs c = true
    · right; exact ⟨c, s, by simp [h], h⟩
    · rw [List.dropWhile_cons_of_pos (by simpa using h)]; exact ih

/-- Every text has a lexical decomposition. -/
theorem lexes_exists (text : Str) : ∃ ps, Lexes text ps := by
  generalize hn : text.length = n
  induction n using Nat.strongRecOn generalizing text with
  | ind n ih =>
    cases text with
    | nil => exact ⟨[], .nil⟩
    | cons c r =>
      by_cases h1 : IsSkip c
      · obtain ⟨ps, h⟩ := ih r.length (by simp [← hn]) r rfl
        exact ⟨_, .skip h1 h⟩
      by_cases h2 : IsBreak c
      · obtain ⟨ps, h⟩ := ih r.length (by simp [← hn]) r rfl
        exact ⟨_, .brk h2 h⟩
      by_cases h3 : c = '├'
      · subst h3
        obtain ⟨ps, h⟩ := ih r.length (by simp [← hn]) r rfl
        exact ⟨_, .tee h⟩
      by_cases h4 : c = '└'
      · subst h4
        obtain ⟨ps, h⟩ := ih r.length (by simp [← hn]) r rfl
        exact ⟨_, .corner h⟩
      by_cases h5 : c = '/' ∧ ∃ r', r = '/' :: r'
      · obtain ⟨rfl, r', rfl⟩ := h5
        have hlen : (r'.dropWhile (· ≠ '\n')).length ≤ r'.length := by
          exact (List.dropWhile_sublist _).length_le
        obtain ⟨ps, h⟩ := ih (r'.dropWhile (· ≠ '\n')).length (by simp [← hn] at hlen ⊢; omega) _ rfl
        have := Lexes.comment (takeWhile_ne_mem r') (atLineEnd_dropWhile r') h
        rw [List.takeWhile_append_dropWhile] at this
        exact ⟨_, this⟩
      · have hlen : (r.dropWhile (fun c => !isWs c)).length ≤ r.length := (List.dropWhile_sublist _).length_le
        obtain ⟨ps, h⟩ := ih (r.dropWhile (fun c => !isWs c)).length (by simp [← hn] at hlen ⊢; omega) _ rfl
        have := Lexes.word (c := c) (s := r.takeWhile (fun c => !isWs c))
          (by rw [List.takeWhile_append_dropWhile]; exact ⟨h1, h2, h3, h4, h5⟩)
          (by intro d hd
              have := (List.all_eq_true.1 (List.all_takeWhile (p := fun c : Char => !isWs c))) d hd
              simpa using this)
          (atWordEnd_dropWhile r) h
        rw [List.takeWhile_append_dropWhile] at this
        exact ⟨_, this⟩

theorem lexes_charsOf {text : Str} {ps : List Piece} (h : Lexes text ps) : charsOf ps = text := by
  induction h with
  | nil => rfl
  | _ => simp_all [charsOf, Piece.chars]

theorem atLineEnd_unique {s s' r r' : Str} (h : s ++ r = s' ++ r') (hs : '\n' ∉ s) (hs' : '\n' ∉ s')
    (hr : AtLineEnd r) (hr' : AtLineEnd r') : s = s' ∧ r = r' := by
  induction s generalizing s' with
  | nil =>
    cases s' with
    | nil => exact ⟨rfl, by simpa using h⟩
    | cons d s' =>
      rcases hr with rfl | ⟨t, rfl⟩
      · simp at h
      · simp at h hs'; exact absurd h.1 hs'.1
  | cons c s ih =>
    cases s' with
    | nil =>
      rcases hr' with rfl | ⟨t, rfl⟩
      · simp at h
      · simp at h; simp [h.1] at hs
    | cons d s' =>
      simp at h hs hs'
      obtain ⟨h1, h2⟩ := ih h.2 hs.2 hs'.2
      exact ⟨by rw [h.1, h1], h2⟩

theorem atWordEnd_unique {s s' r r' : Str} (h : s ++ r = s' ++ r') (hs : ∀ d ∈ s, isWs d = false)
    (hs' : ∀ d ∈ s', isWs d = false) (hr : AtWordEnd r) (hr' : AtWordEnd r') : s = s' ∧ r = r' := by
  induction s generalizing s' with
  | nil =>
    cases s' with
    | nil => exact ⟨rfl, by simpa using h⟩
    | cons d s' =>
      rcases hr with rfl | ⟨e, t, rfl, he⟩
      · simp at h
      · simp at h; have := hs' d (by simp); rw [← h.1, he] at this; cases this
  | cons c s ih =>
    cases s' with
    | nil =>
      rcases hr' with rfl | ⟨e, t, rfl, he⟩
      · simp at h
      · simp at h; have := hs c (by simp); rw [h.1, he] at this; cases this
    | cons d s' =>
      simp at h
      obtain ⟨h1, h2⟩ := ih h.2 (fun x hx => hs x (List.mem_cons_of_mem _ hx))
        (fun x hx => hs' x (List.mem_cons_of_mem _ hx))
      exact ⟨by rw [h.1, h1], h2⟩

/-- The lexical decomposition is unique. -/
theorem lexes_unique {text : Str} {ps qs : List Piece} (h : Lexes text ps) (h' : Lexes text qs) : ps = qs := by
  induction h generalizing qs with
  | nil => cases h' ; rfl
  | @skip c r ps hc hl ih =>
    cases h' with
    | skip _ h => rw [ih h]
    | brk hb h => rcases hc with rfl | rfl | rfl <;> simp [IsBreak] at hb
    | tee h => simp [IsSkip] at hc
    | corner h => simp [IsSkip] at hc
    | comment _ _ h => simp [IsSkip] at hc
    | word hw => exact absurd hc hw.1
  | @brk c r ps hc hl ih =>
    cases h' with
    | brk _ h => rw [ih h]
    | skip hb h => rcases hc with rfl | rfl | rfl <;> simp [IsSkip] at hb
    | tee h => simp [IsBreak] at hc
    | corner h => simp [IsBreak] at hc
    | comment _ _ h => simp [IsBreak] at hc
    | word hw => exact absurd hc hw.2.1
  | @tee r ps hl ih =>
    cases h' with
    | tee h => rw [ih h]
    | skip hb h => simp [IsSkip] at hb
    | brk hb h => simp [IsBreak] at hb
    | word hw => exact absurd rfl hw.2.2.1
  | @corner r ps hl ih =>
    cases h' with
    | corner h => rw [ih h]
    | skip hb h => simp [IsSkip] at hb
    | brk hb h => simp [IsBreak] at hb
    | word hw => exact absurd rfl hw.2.2.2.1
  | @comment s r ps hs hr hl ih =>
    generalize ht : '/' :: '/' :: (s ++ r) = t at h'
    cases h' with
    | nil => cases ht
    | skip hb h => cases ht; simp [IsSkip] at hb
    | brk hb h => cases ht; simp [IsBreak] at hb
    | tee h => cases ht
    | corner h => cases ht
    | comment hs' hr' h =>
      simp only [List.cons.injEq, true_and] at ht
      obtain ⟨rfl, rfl⟩ := atLineEnd_unique ht hs hs' hr hr'
      rw [ih h]
    | @word c s' r' ps' hw hs' hr' h =>
      simp only [List.cons.injEq] at ht
      exact absurd ⟨ht.1.symm, s ++ r, ht.2.symm⟩ hw.2.2.2.2
  | @word c s r ps hc hs hr hl ih =>
    generalize ht : c :: (s ++ r) = t at h'
    cases h' with
    | nil => cases ht
    | skip hb h => cases ht; exact absurd hb hc.1
    | brk hb h => cases ht; exact absurd hb hc.2.1
    | tee h => cases ht; exact absurd rfl hc.2.2.1
    | corner h => cases ht; exact absurd rfl hc.2.2.2.1
    | @comment s' r' ps' hs' hr' h =>
      simp only [List.cons.injEq] at ht
      exact absurd ⟨ht.1, s' ++ r', ht.2⟩ hc.2.2.2.2
    | word hw hs' hr' h =>
      simp only [List.cons.injEq] at ht
      obtain ⟨rfl, ht⟩ := ht
      obtain ⟨rfl, rfl⟩ := atWordEnd_unique ht hs hs' hr hr'
      rw [ih h]

section
variable [U : Ucd]

theorem tokenize_eq_lexRun {text : Str} {ps : List Piece} (h : Lexes text ps) :
    tokenize text = lexRun [] false [] ps := by
  rw [tokenize, ← posOf_nil]
  exact tokLoop_lexRun h _ _ _ _ (by omega)

/-! ## Keywords -/

theorem strToLower_eq_iff [L : LawfulUcd] (t w : Str) (ht : ∀ d ∈ t, isAsciiAlnum d = true)
    (hk : 'k' ∉ t) : strToLower w = t ↔ w.map asciiLower = t := by
  have key : ∀ w : Str, (∀ c ∈ w, c.toNat < 128) → strToLower w = w.map asciiLower := by
    intro w hw
    induction w with
    | nil => rfl
    | cons c w ih =>
      have := L.plain_lower c (by simp [isPlain, hw c (by simp)])
      simp only [strToLower, List.flatMap_cons, List.map_cons] at ih ⊢
      rw [this, ih (fun x hx => hw x (List.mem_cons_of_mem _ hx))]
      rfl
  constructor
  · intro h
    rw [← h]
    symm
    apply key
    intro c hc
    have hsub : ∀ d ∈ U.toLower c, d ∈ t := by
      intro d hd; rw [← h]; exact List.mem_flatMap.2 ⟨c, hc, hd⟩
    obtain ⟨d, hd⟩ := List.exists_mem_of_ne_nil _ (L.lower_ne c)
    rcases L.lower_ascii c d hd (ht d (hsub d hd)) with h1 | h1 | h1
    · exact h1
    · have : c = Char.ofNat 0x212A := by rw [← h1, Char.ofNat_toNat]
      rw [this, L.lower_kelvin] at hsub
      exact absurd (hsub 'k' (by simp)) hk
    · have : c = Char.ofNat 0x130 := by rw [← h1, Char.ofNat_toNat]
      rw [this, L.lower_idot] at hsub
      have := ht _ (hsub (Char.ofNat 0x307) (by simp))
      exact absurd this (by decide)
  · intro h
    rw [← h]
    apply key
    intro c hc
    have h1 : isAsciiAlnum (asciiLower c) = true := ht _ (by rw [← h]; exact List.mem_map_of_mem hc)
    by_cases h2 : 65 ≤ c.toNat ∧ c.toNat ≤ 90
    · omega
    · have : asciiLower c = c := by
        unfold asciiLower; rw [if_neg (by simpa using h2)]
      rw [this] at h1
      simp [isAsciiAlnum] at h1; omega

theorem wordKind_eq [L : LawfulUcd] (w : Str) : wordKind w = kindOfWord w := by
  unfold wordKind kindOfWord
  simp only [strToLower_eq_iff c!"when" w (by decide) (by decide),
    strToLower_eq_iff c!"it" w (by decide) (by decide),
    strToLower_eq_iff c!"given" w (by decide) (by decide)]

theorem wordKind_condition [L : LawfulUcd] (w : Str) :
    (wordKind w = .when ∨ wordKind w = .given) ↔ IsConditionWord w := by
  rw [wordKind_eq]
  unfold kindOfWord IsConditionWord IsKeyword
  by_cases h1 : w.map asciiLower = c!"when"
  · simp [h1]
  · by_cases h2 : w.map asciiLower = c!"it"
    · simp [h2]
    · by_cases h3 : w.map asciiLower = c!"given" <;> simp [h1, h2, h3]

theorem titleChar_iff (c : Char) : TitleChar c ↔ isValidIdentChar c = true := by
  simp [TitleChar, isValidIdentChar, or_assoc]

/-! ## Prefix states -/

/-- The last token of the pieces is a branch glyph. -/
def AfterBranch (P : List Piece) : Prop :=
  ∃ A br g, P = A ++ br :: g ∧ br.isBranch = true ∧ ∀ p ∈ g, p.isGap = true

theorem not_afterBranch_nil : ¬ AfterBranch [] := by
  rintro ⟨A, br, g, h, _⟩; simp at h

theorem not_inTitle_nil : ¬ InTitle [] := by
  rintro ⟨A, br, g, kw, B, h, _⟩; simp at h

theorem snoc_eq_append_cons {α} {P A g : List α} {p x : α} (h : P ++ [p] = A ++ x :: g) :
    (g = [] ∧ P = A ∧ p = x) ∨ ∃ g', g = g' ++ [p] ∧ P = A ++ x :: g' := by
  rcases snoc_cases g with rfl | ⟨g', y, rfl⟩
  · left
    have := List.append_inj' h rfl
    exact ⟨rfl, this.1, by simpa using this.2⟩
  · right
    rw [← List.cons_append, ← List.append_assoc] at h
    have := List.append_inj' h rfl
    have h2 : p = y := by simpa using this.2
    exact ⟨g', by rw [h2], this.1⟩

theorem afterBranch_snoc (P : List Piece) (p : Piece) :
    AfterBranch (P ++ [p]) ↔ p.isBranch = true ∨ (AfterBranch P ∧ p.isGap = true) := by
  constructor
  · rintro ⟨A, br, g, h, hb, hg⟩
    rcases snoc_eq_append_cons h with ⟨rfl, rfl, rfl⟩ | ⟨g', rfl, rfl⟩
    · exact Or.inl hb
    · exact Or.inr ⟨⟨A, br, g', rfl, hb, fun q hq => hg q (by simp [hq])⟩, hg p (by simp)⟩
  · rintro (h | ⟨⟨A, br, g, rfl, hb, hg⟩, hp⟩)
    · exact ⟨P, p, [], rfl, h, by simp⟩
    · refine ⟨A, br, g ++ [p], by simp, hb, ?_⟩
      intro q hq
      rcases List.mem_append.1 hq with hq | hq
      · exact hg q hq
      · simp at hq; rw [hq]; exact hp

theorem inTitle_snoc (P : List Piece) (p : Piece) :
    InTitle (P ++ [p]) ↔ (InTitle P ∧ p.endsTitle = false) ∨
      (AfterBranch P ∧ ∃ kw, p = .word kw ∧ IsConditionWord kw) := by
  constructor
  · rintro ⟨A, br, g, kw, B, h, hb, hg, hk, hB⟩
    rw [← List.cons_append, ← List.append_assoc] at h
    rcases snoc_eq_append_cons h with ⟨rfl, rfl, rfl⟩ | ⟨B', rfl, rfl⟩
    · exact Or.inr ⟨⟨A, br, g, rfl, hb, hg⟩, kw, rfl, hk⟩
    · refine Or.inl ⟨⟨A, br, g, kw, B', by simp, hb, hg, hk, fun q hq => hB q (by simp [hq])⟩, hB p (by simp)⟩
  · rintro (⟨⟨A, br, g, kw, B, rfl, hb, hg, hk, hB⟩, hp⟩ | ⟨⟨A, br, g, rfl, hb, hg⟩, kw, rfl, hk⟩)
    · refine ⟨A, br, g, kw, B ++ [p], by simp, hb, hg, hk, ?_⟩
      intro q hq
      rcases List.mem_append.1 hq with hq | hq
      · exact hB q hq
      · simp at hq; rw [hq]; exact hp
    · exact ⟨A, br, g, kw, [], by simp, hb, hg, hk, by simp⟩

/-- The tokens of the pieces. -/
def tokensOf (pre : Str) : List Piece → List Token
  | [] => []
  | .tee :: ps => ⟨.tee, Span.splat (posOf pre), c!"├"⟩ :: tokensOf (pre ++ c!"├") ps
  | .corner :: ps => ⟨.corner, Span.splat (posOf pre), c!"└"⟩ :: tokensOf (pre ++ c!"└") ps
  | .word w :: ps => ⟨wordKind w, ⟨posOf pre, posOf (pre ++ w.dropLast)⟩, w⟩ :: tokensOf (pre ++ w) ps
  | .skip c :: ps => tokensOf (pre ++ [c]) ps
  | .brk c :: ps => tokensOf (pre ++ [c]) ps
  | .comment s :: ps => tokensOf (pre ++ '/' :: '/' :: s) ps

theorem tokensOf_append (pre : Str) (P Q : List Piece) :
    tokensOf pre (P ++ Q) = tokensOf pre P ++ tokensOf (pre ++ charsOf P) Q := by
  induction P generalizing pre with
  | nil => simp [tokensOf, charsOf]
  | cons p P ih => cases p <;> simp [tokensOf, ih, charsOf, Piece.chars]

theorem word_not_branch (w : Str) (sp : Span) (l : Str) : Token.isBranch ⟨wordKind w, sp, l⟩ = false := by
  unfold wordKind
  simp only []
  repeat' split
  all_goals simp_all [Token.isBranch]

theorem lastBranch_iff (P : List Piece) (pre : Str) :
    ((tokensOf pre P).getLast?.map Token.isBranch).getD false = true ↔ AfterBranch P := by
  induction P using snocInd generalizing pre with
  | nil => simp [tokensOf, not_afterBranch_nil]
  | snoc P p ih =>
    rw [afterBranch_snoc, tokensOf_append, ← ih pre]
    cases p with
    | word w =>
      simp [tokensOf, Piece.isBranch, Piece.isGap, word_not_branch]
    | _ => simp [tokensOf, Piece.isBranch, Piece.isGap, Token.isBranch]

theorem charsOf_append (P Q) : charsOf (P ++ Q) = charsOf P ++ charsOf Q := by simp [charsOf]

/-- What `lexRun` returns after the pieces `P` have been read without an error. -/
theorem lexRun_spec [L : LawfulUcd] (ps : List Piece) : ∀ (P : List Piece) (mode : Bool),
    (mode = true ↔ InTitle P) →
    match lexRun (tokensOf [] P) mode (charsOf P) ps with
    | .ok toks => toks = tokensOf [] (P ++ ps) ∧
        ∀ Q w C, ps = Q ++ .word w :: C → InTitle (P ++ Q) → ∀ x ∈ w, isValidIdentChar x = true
    | .err e => ∃ Q w C, ps = Q ++ .word w :: C ∧ InTitle (P ++ Q) ∧
        (∃ b, w = w.takeWhile isValidIdentChar ++ e.char :: b) ∧ isValidIdentChar e.char = false ∧
        e.span = Span.splat (posOf (charsOf (P ++ Q) ++ w.takeWhile isValidIdentChar)) ∧
        ∀ Q' w' C', ps = Q' ++ .word w' :: C' → InTitle (P ++ Q') → Q'.length < Q.length →
          ∀ x ∈ w', isValidIdentChar x = true
    | .panic => False := by
  induction ps with
  | nil =>
    intro P mode hm
    simp [lexRun]
  | cons p ps ih =>
    intro P mode hm
    -- one step that does not fail
    have step : ∀ mode' : Bool, (mode' = true ↔ InTitle (P ++ [p])) →
        (lexRun (tokensOf [] P) mode (charsOf P) (p :: ps) =
          lexRun (tokensOf [] (P ++ [p])) mode' (charsOf (P ++ [p])) ps) →
        (∀ w, p = .word w → InTitle P → ∀ x ∈ w, isValidIdentChar x = true) →
        (match lexRun (tokensOf [] P) mode (charsOf P) (p :: ps) with
        | .ok toks => toks = tokensOf [] (P ++ p :: ps) ∧
            ∀ Q w C, p :: ps = Q ++ .word w :: C → InTitle (P ++ Q) → ∀ x ∈ w, isValidIdentChar x = true
        | .err e => ∃ Q w C, p :: ps = Q ++ .word w :: C ∧ InTitle (P ++ Q) ∧
            (∃ b, w = w.takeWhile isValidIdentChar ++ e.char :: b) ∧ isValidIdentChar e.char = false ∧
            e.span = Span.splat (posOf (charsOf (P ++ Q) ++ w.takeWhile isValidIdentChar)) ∧
            ∀ Q' w' C', p :: ps = Q' ++ .word w' :: C' → InTitle (P ++ Q') → Q'.length < Q.length →
              ∀ x ∈ w', isValidIdentChar x = true
        | .panic => False) := by
      intro mode' hm' heq hw
      have := ih (P ++ [p]) mode' hm'
      rw [heq]
      revert this
      cases lexRun (tokensOf [] (P ++ [p])) mode' (charsOf (P ++ [p])) ps with
      | ok toks =>
        simp only [List.append_assoc, List.singleton_append]
        rintro ⟨h1, h2⟩
        refine ⟨h1, ?_⟩
        intro Q w C hQ hT
        cases Q with
        | nil => simp at hQ; exact hw w hQ.1 (by simpa using hT)
        | cons q Q => simp at hQ; obtain ⟨rfl, hQ⟩ := hQ; exact h2 Q w C hQ (by simpa using hT)
      | err e =>
        simp only
        rintro ⟨Q, w, C, h1, h2, h3, h4, h5, h6⟩
        refine ⟨p :: Q, w, C, by simp [h1], by simpa using h2, h3, h4, by simpa using h5, ?_⟩
        intro Q' w' C' hQ hT hl
        cases Q' with
        | nil => simp at hQ; exact hw w' hQ.1 (by simpa using hT)
        | cons q Q' =>
          simp at hQ; obtain ⟨rfl, hQ⟩ := hQ
          exact h6 Q' w' C' hQ (by simpa using hT) (by simpa using hl)
      | panic => exact id
    cases p with
    | word w =>
      by_cases hbad : mode = true ∧ ∃ x ∈ w, isValidIdentChar x = false
      · rw [lexRun, if_pos hbad]
        obtain ⟨x, b, e1, e2, e3⟩ := takeWhile_split isValidIdentChar w hbad.2
        simp only [e3, List.headD_cons]
        refine ⟨[], w, ps, rfl, by simpa using hm.1 hbad.1, ⟨b, e1⟩, e2, by simp, ?_⟩
        intro Q' w' C' _ _ hl
        simp at hl
      · refine step (if ((tokensOf [] P).getLast?.map Token.isBranch).getD false &&
            (wordKind w = .when || wordKind w = .given) then true else mode) ?_ ?_ ?_
        · rw [inTitle_snoc]
          have e1 := lastBranch_iff P []
          have e2 := wordKind_condition w
          have e3 : (∃ kw, Piece.word w = .word kw ∧ IsConditionWord kw) ↔ IsConditionWord w := by
            constructor
            · rintro ⟨kw, h, hk⟩; cases h; exact hk
            · intro h; exact ⟨w, rfl, h⟩
          rw [e3, ← e1, ← e2, ← hm]
          simp only [Piece.endsTitle, and_true]
          by_cases hc : ((tokensOf [] P).getLast?.map Token.isBranch).getD false = true ∧
              (wordKind w = .when ∨ wordKind w = .given)
          · simp [hc]
          · have : (((tokensOf [] P).getLast?.map Token.isBranch).getD false &&
              (decide (wordKind w = .when) || decide (wordKind w = .given))) = false := by
              simpa using hc
            rw [this]
            simp [hc]
        · rw [lexRun, if_neg hbad, tokensOf_append, charsOf_append]
          simp [tokensOf, charsOf, Piece.chars]
        · intro w' hw' hT x hx
          cases hw'
          cases hv : isValidIdentChar x with
          | true => rfl
          | false => exact absurd ⟨hm.2 hT, x, hx, hv⟩ hbad
    | skip c =>
      refine step mode (by rw [inTitle_snoc]; simp [Piece.endsTitle, hm]) ?_ (by intro w h; cases h)
      simp [lexRun, tokensOf_append, charsOf_append, tokensOf, charsOf, Piece.chars]
    | brk c =>
      refine step false (by rw [inTitle_snoc]; simp [Piece.endsTitle]) ?_ (by intro w h; cases h)
      simp [lexRun, tokensOf_append, charsOf_append, tokensOf, charsOf, Piece.chars]
    | comment s =>
      refine step false (by rw [inTitle_snoc]; simp [Piece.endsTitle]) ?_ (by intro w h; cases h)
      simp [lexRun, tokensOf_append, charsOf_append, tokensOf, charsOf, Piece.chars]
    | tee =>
      refine step mode (by rw [inTitle_snoc]; simp [Piece.endsTitle, hm]) ?_ (by intro w h; cases h)
      simp [lexRun, tokensOf_append, charsOf_append, tokensOf, charsOf, Piece.chars]
    | corner =>
      refine step mode (by rw [inTitle_snoc]; simp [Piece.endsTitle, hm]) ?_ (by intro w h; cases h)
      simp [lexRun, tokensOf_append, charsOf_append, tokensOf, charsOf, Piece.chars]

end
end Bulloak
