import Verif.Spec.Draw
import Verif.Lemmas.Parse3
/-! # Lemmas for the drawing round trip -/

set_option linter.unusedSectionVars false

namespace Bulloak
open Spec

/-! ## Pieces of a drawing -/

/-- Pieces of words separated by single spaces. -/
def wordPieces : List Str → List Piece
  | [] => []
  | [w] => [.word w]
  | w :: v :: ws => .word w :: .skip ' ' :: wordPieces (v :: ws)

/-- Pieces of a line, with the line feed before it. -/
def linePieces (l : Line) : List Piece :=
  .brk '\n' :: (l.indent.map .skip ++ (if l.last then Piece.corner else .tee) ::
    .skip '─' :: .skip '─' :: .skip ' ' :: wordPieces l.words)

/-- A line as drawn. -/
def LineOk (l : Line) : Prop :=
  (∀ c ∈ l.indent, c = ' ' ∨ c = '│') ∧ l.words ≠ [] ∧ ∀ w ∈ l.words, IsWord w

theorem isWs_space : isWs ' ' = true := by decide

theorem atWordEnd_of {r : Str} (h : r = [] ∨ ∃ r', r = '\n' :: r') : AtWordEnd r := by
  rcases h with h | ⟨r', h⟩
  · exact Or.inl h
  · exact Or.inr ⟨'\n', r', h, by decide⟩

theorem lexes_word {w r : Str} {ps : List Piece} (hw : IsWord w) (hr : AtWordEnd r) (h : Lexes r ps) :
    Lexes (w ++ r) (.word w :: ps) := by
  obtain ⟨c, s, rfl, h1, h2, h3, h4, h5, h6⟩ := hw
  have hc := h6 c (by simp)
  refine .word ?_ (fun d hd => h6 d (by simp [hd])) hr h
  refine ⟨?_, ?_, h3, h4, ?_⟩
  · rintro (rfl | rfl | rfl)
    · exact absurd hc (by decide)
    · exact h1 rfl
    · exact h2 rfl
  · rintro (rfl | rfl | rfl) <;> exact absurd hc (by decide)
  · rintro ⟨rfl, r', hr'⟩
    cases s with
    | nil =>
      simp at hr'
      rcases hr with rfl | ⟨d, r'', rfl, hd⟩
      · simp at hr'
      · simp at hr'
        rw [hr'.1] at hd
        exact absurd hd (by decide)
    | cons d s =>
      simp at hr'
      exact h5 ⟨rfl, s, by rw [hr'.1]⟩

theorem lexes_words {ws : List Str} (hw : ∀ w ∈ ws, IsWord w) {r : Str} {ps : List Piece}
    (hr : r = [] ∨ ∃ r', r = '\n' :: r') (h : Lexes r ps) : Lexes (joinSep c!" " ws ++ r) (wordPieces ws ++ ps) := by
  induction ws with
  | nil => exact h
  | cons w ws ih =>
    cases ws with
    | nil => exact lexes_word (hw w (by simp)) (atWordEnd_of hr) h
    | cons v ws =>
      have := ih (fun x hx => hw x (by simp [hx]))
      simp only [joinSep, wordPieces, List.cons_append, List.append_assoc]
      refine lexes_word (hw w (by simp)) (Or.inr ⟨' ', _, rfl, isWs_space⟩) ?_
      exact .skip (Or.inl rfl) this

theorem lexes_skips {s : Str} (hs : ∀ c ∈ s, c = ' ' ∨ c = '│') {r : Str} {ps : List Piece} (h : Lexes r ps) :
    Lexes (s ++ r) (s.map .skip ++ ps) := by
  induction s with
  | nil => exact h
  | cons c s ih =>
    refine .skip ?_ (ih (fun x hx => hs x (by simp [hx])))
    rcases hs c (by simp) with rfl | rfl
    · exact Or.inl rfl
    · exact Or.inr (Or.inr rfl)

theorem lexes_lines {ls : List Line} (hl : ∀ l ∈ ls, LineOk l) :
    Lexes (ls.flatMap (fun l => '\n' :: l.text)) (ls.flatMap linePieces) ∧
    (ls.flatMap (fun l => '\n' :: l.text) = [] ∨ ∃ r, ls.flatMap (fun l => '\n' :: l.text) = '\n' :: r) := by
  induction ls with
  | nil => exact ⟨.nil, Or.inl rfl⟩
  | cons l ls ih =>
    obtain ⟨i1, i2⟩ := ih (fun x hx => hl x (by simp [hx]))
    obtain ⟨h1, h2, h3⟩ := hl l (by simp)
    refine ⟨?_, Or.inr ⟨_, rfl⟩⟩
    have e1 : (l :: ls).flatMap (fun l => '\n' :: l.text) = '\n' :: (l.indent ++ ((if l.last then c!"└" else c!"├") ++
        (c!"── " ++ (joinSep c!" " l.words ++ ls.flatMap (fun l => '\n' :: l.text))))) := by
      rw [List.flatMap_cons, Line.text]; simp
    have e2 : (l :: ls).flatMap linePieces = .brk '\n' :: (l.indent.map .skip ++ ((if l.last then Piece.corner else .tee) ::
        .skip '─' :: .skip '─' :: .skip ' ' :: (wordPieces l.words ++ ls.flatMap linePieces))) := by
      rw [List.flatMap_cons, linePieces]; simp
    rw [e1, e2]
    refine .brk (Or.inl rfl) (lexes_skips h1 ?_)
    have hw := lexes_words h3 i2 i1
    have hrest : Lexes (c!"── " ++ (joinSep c!" " l.words ++ ls.flatMap (fun l => '\n' :: l.text)))
        (.skip '─' :: .skip '─' :: .skip ' ' :: (wordPieces l.words ++ ls.flatMap linePieces)) :=
      .skip (Or.inr (Or.inl rfl)) (.skip (Or.inr (Or.inl rfl)) (.skip (Or.inl rfl) hw))
    cases l.last
    · exact .tee hrest
    · exact .corner hrest

/-! ## Tokens of a drawing -/
section
variable [U : Ucd]

/-- The header stands for the line. -/
def HL (h : Header) (l : Line) : Prop :=
  h.col = l.indent.length + 1 ∧ h.glyph.kind = (if l.last then .corner else .tee) ∧
  h.words.map (·.lexeme) = l.words ∧ ∀ t ∈ h.words, t.kind = wordKind t.lexeme

theorem lexRun_skips (s : Str) : ∀ toks mode pre ps, lexRun toks mode pre (s.map .skip ++ ps) = lexRun toks mode (pre ++ s) ps := by
  induction s with
  | nil => intros; simp
  | cons c s ih =>
    intro toks mode pre ps
    simp only [List.map_cons, List.cons_append, lexRun]
    rw [ih]; simp

/-- Word tokens. -/
def wordToks (pre : Str) : List Str → List Token
  | [] => []
  | w :: ws => ⟨wordKind w, ⟨posOf pre, posOf (pre ++ w.dropLast)⟩, w⟩ :: wordToks (pre ++ w ++ c!" ") ws

theorem wordToks_lex (ws : List Str) : ∀ pre, (wordToks pre ws).map (·.lexeme) = ws := by
  induction ws with
  | nil => intro; rfl
  | cons w ws ih => intro pre; simp [wordToks, ih]

theorem wordToks_kind (ws : List Str) : ∀ pre, ∀ t ∈ wordToks pre ws, t.kind = wordKind t.lexeme := by
  induction ws with
  | nil => intro pre t ht; simp [wordToks] at ht
  | cons w ws ih =>
    intro pre t ht
    rcases List.mem_cons.1 ht with rfl | ht
    · rfl
    · exact ih _ t ht

theorem wordKind_isBranch (w : Str) (sp : Span) : Token.isBranch ⟨wordKind w, sp, w⟩ = false := word_not_branch w sp w

/-- Words after the first one of a line. -/
theorem lexRun_words (ws : List Str) (mode : Bool) (hm : mode = true → ∀ w ∈ ws, ∀ c ∈ w, TitleChar c) :
    ∀ toks pre ps, ((toks.getLast?.map Token.isBranch).getD false = false) → ∃ mode',
      lexRun toks mode pre (wordPieces ws ++ ps) =
        lexRun (toks ++ wordToks pre ws) mode' (pre ++ joinSep c!" " ws) ps := by
  induction ws with
  | nil => intro toks pre ps _; exact ⟨mode, by simp [wordPieces, wordToks, joinSep]⟩
  | cons w ws ih =>
    intro toks pre ps hlast
    have hcond : ¬ (mode = true ∧ ∃ x ∈ w, isValidIdentChar x = false) := by
      rintro ⟨h1, x, h2, h3⟩
      have := (titleChar_iff x).1 (hm h1 w (by simp) x h2)
      rw [h3] at this; cases this
    cases ws with
    | nil =>
      simp only [wordPieces, List.cons_append, List.nil_append, lexRun, if_neg hcond, hlast]
      exact ⟨mode, by simp [wordToks, joinSep]⟩
    | cons v ws =>
      simp only [wordPieces, List.cons_append, lexRun, if_neg hcond, hlast]
      have := ih (fun h x hx => hm h x (by simp [hx])) (toks ++ [⟨wordKind w, ⟨posOf pre, posOf (pre ++ w.dropLast)⟩, w⟩])
        (pre ++ w ++ c!" ") ps (by simp [wordKind_isBranch])
      simp only [Bool.false_and, Bool.false_eq_true, if_false] at this ⊢
      obtain ⟨mode', h⟩ := this
      refine ⟨mode', ?_⟩
      rw [h]
      simp [wordToks, joinSep]

/-- A line that the tokenizer accepts. -/
def LineGood (l : Line) : Prop :=
  ∃ w ws, l.words = w :: ws ∧
    ((wordKind w = .when ∨ wordKind w = .given) → ∀ x ∈ ws, ∀ c ∈ x, TitleChar c)

/-- Reading the first word after a glyph and the further words. -/
theorem lexRun_glyph_words (w : Str) (ws : List Str) (hg : (wordKind w = .when ∨ wordKind w = .given) → ∀ x ∈ ws, ∀ c ∈ x, TitleChar c)
    (toks : List Token) (g : Token) (hgb : g.isBranch = true) (pre : Str) (ps : List Piece) : ∃ mode',
      lexRun (toks ++ [g]) false pre (wordPieces (w :: ws) ++ ps) =
        lexRun (toks ++ [g] ++ wordToks pre (w :: ws)) mode' (pre ++ joinSep c!" " (w :: ws)) ps := by
  have hlast : (((toks ++ [g]).getLast?.map Token.isBranch).getD false) = true := by simp [hgb]
  cases ws with
  | nil =>
    simp only [wordPieces, List.cons_append, List.nil_append, lexRun, hlast]
    simp only [Bool.false_eq_true, false_and, if_false]
    exact ⟨_, rfl⟩
  | cons v ws =>
    simp only [wordPieces, List.cons_append, lexRun, hlast]
    simp only [Bool.false_eq_true, false_and, if_false, Bool.true_and]
    have := lexRun_words (v :: ws) (if (decide (wordKind w = .when) || decide (wordKind w = .given)) then true else false)
      (by
        intro h x hx
        apply hg
        · by_cases h1 : wordKind w = .when
          · exact Or.inl h1
          · by_cases h2 : wordKind w = .given
            · exact Or.inr h2
            · simp [h1, h2] at h
        · exact hx)
      (toks ++ [g] ++ [⟨wordKind w, ⟨posOf pre, posOf (pre ++ w.dropLast)⟩, w⟩]) (pre ++ w ++ c!" ") ps
      (by simp [wordKind_isBranch])
    obtain ⟨mode', h⟩ := this
    refine ⟨mode', ?_⟩
    rw [h]
    simp [wordToks, joinSep]

theorem lastLine_nl (a s : Str) (hs : '\n' ∉ s) : lastLine (a ++ '\n' :: s) = s := by
  unfold lastLine
  simp only [List.reverse_append, List.reverse_cons, List.append_assoc]
  have : (s.reverse ++ ([ '\n' ] ++ a.reverse)).takeWhile (· ≠ '\n') = s.reverse := by
    rw [List.takeWhile_append_of_pos]
    · simp
    · intro c hc
      simp only [decide_not, Bool.not_eq_true', decide_eq_false_iff_not]
      rintro rfl
      exact hs (by simpa using hc)
  rw [this]; simp

theorem lexRun_line (l : Line) (hok : LineOk l) (hg : LineGood l) (toks : List Token) (mode : Bool) (pre : Str) (ps : List Piece) :
    ∃ h mode', HL h l ∧ lexRun toks mode pre (linePieces l ++ ps) =
      lexRun (toks ++ h.toks) mode' (pre ++ ('\n' :: l.text)) ps := by
  obtain ⟨w, ws, hw, hg⟩ := hg
  have hcol : (posOf (pre ++ c!"\n" ++ l.indent)).column = l.indent.length + 1 := by
    have : lastLine (pre ++ c!"\n" ++ l.indent) = l.indent := by
      have := lastLine_nl pre l.indent (by
        intro h
        rcases hok.1 _ h with h | h <;> exact absurd h (by decide))
      simpa using this
    simp only [posOf, this]; omega
  simp only [linePieces, List.cons_append, lexRun, List.append_assoc]
  rw [lexRun_skips]
  have fin : ∀ (g : Token) (gs : Str), g.isBranch = true → g.span.start = posOf (pre ++ c!"\n" ++ l.indent) →
      g.kind = (if l.last then TokenKind.corner else .tee) → gs = (if l.last then c!"└" else c!"├") →
      ∃ h mode', HL h l ∧ lexRun (toks ++ [g]) false (pre ++ c!"\n" ++ l.indent ++ gs ++ ['─'] ++ ['─'] ++ [' '])
        (wordPieces l.words ++ ps) = lexRun (toks ++ h.toks) mode' (pre ++ ('\n' :: l.text)) ps := by
    intro g gs hgb hstart hkind hgs
    obtain ⟨mode', h⟩ := lexRun_glyph_words w ws hg toks g hgb
      (pre ++ c!"\n" ++ l.indent ++ gs ++ ['─'] ++ ['─'] ++ [' ']) ps
    rw [hw, h]
    generalize hP : pre ++ c!"\n" ++ l.indent ++ gs ++ ['─'] ++ ['─'] ++ [' '] = P
    refine ⟨⟨g, ⟨wordKind w, ⟨posOf P, posOf (P ++ w.dropLast)⟩, w⟩, wordToks (P ++ w ++ c!" ") ws⟩, mode', ?_, ?_⟩
    · refine ⟨?_, hkind, ?_, ?_⟩
      · simp only [Header.col, hstart, hcol]
      · rw [hw]
        exact wordToks_lex (w :: ws) P
      · exact wordToks_kind (w :: ws) P
    · have e : P ++ joinSep c!" " (w :: ws) = pre ++ ('\n' :: l.text) := by
        rw [← hP, Line.text, hw, hgs]; simp
      rw [e]
      simp [Header.toks, wordToks]
  cases hlast : l.last
  · have := fin ⟨.tee, Span.splat (posOf (pre ++ c!"\n" ++ l.indent)), c!"├"⟩ c!"├" rfl rfl (by simp [hlast]) (by simp [hlast])
    simpa [lexRun] using this
  · have := fin ⟨.corner, Span.splat (posOf (pre ++ c!"\n" ++ l.indent)), c!"└"⟩ c!"└" rfl rfl (by simp [hlast]) (by simp [hlast])
    simpa [lexRun] using this

theorem lexRun_lines (ls : List Line) (hok : ∀ l ∈ ls, LineOk l) (hg : ∀ l ∈ ls, LineGood l) :
    ∀ toks mode pre, ∃ hs, Each HL hs ls ∧ lexRun toks mode pre (ls.flatMap linePieces) = .ok (toks ++ flat hs) := by
  induction ls with
  | nil => intro toks mode pre; exact ⟨[], .nil, by simp [lexRun, flat]⟩
  | cons l ls ih =>
    intro toks mode pre
    obtain ⟨h, mode', h1, h2⟩ := lexRun_line l (hok l (by simp)) (hg l (by simp)) toks mode pre (ls.flatMap linePieces)
    obtain ⟨hs, h3, h4⟩ := ih (fun x hx => hok x (by simp [hx])) (fun x hx => hg x (by simp [hx])) (toks ++ h.toks) mode'
      (pre ++ ('\n' :: l.text))
    refine ⟨h :: hs, .cons h1 h3, ?_⟩
    rw [List.flatMap_cons, h2, h4, flat_cons]
    simp

end
end Bulloak
