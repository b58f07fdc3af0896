import Verif.Lemmas.Lex2
/-! # Lemmas for the lexical properties: tiling and comment removal -/

set_option linter.unusedSectionVars false

namespace Bulloak
open Spec

theorem tiles_prepend {pre x r : Str} {toks : List Token}
    (hx : ∀ g rest, g ++ rest = r → Gap g rest → Gap (x ++ g) rest)
    (h : Tiles (pre ++ x) r toks) : Tiles pre (x ++ r) toks := by
  generalize hp : pre ++ x = p at h
  cases h with
  | done hg => exact .done (hx _ [] (by simp) hg)
  | @tok _ g rest t toks hg hne hs he ht =>
    subst hp
    have := Tiles.tok (pre := pre) (g := x ++ g) (rest := rest) (t := t) (toks := toks)
      (hx g (t.lexeme ++ rest) (by simp) hg) hne (by rw [← List.append_assoc]; exact hs)
      (by simpa [List.append_assoc] using he) (by simpa [List.append_assoc] using ht)
    simpa [List.append_assoc] using this

section
variable [U : Ucd]

theorem tiles_tokensOf {r : Str} {ps : List Piece} (h : Lexes r ps) :
    ∀ pre, Tiles pre r (tokensOf pre ps) := by
  induction h with
  | nil => intro pre; exact .done .nil
  | @skip c r ps hc hl ih =>
    intro pre
    exact tiles_prepend (x := [c]) (fun g rest _ hg => .char (Or.inl hc) hg) (ih _)
  | @brk c r ps hc hl ih =>
    intro pre
    exact tiles_prepend (x := [c]) (fun g rest _ hg => .char (Or.inr hc) hg) (ih _)
  | @tee r ps hl ih =>
    intro pre
    exact Tiles.tok (pre := pre) (g := []) (rest := r) (t := ⟨.tee, Span.splat (posOf pre), c!"├"⟩)
      .nil (by simp) (by simp [Span.splat]) (by simp [Span.splat]) (by simpa using ih _)
  | @corner r ps hl ih =>
    intro pre
    exact Tiles.tok (pre := pre) (g := []) (rest := r) (t := ⟨.corner, Span.splat (posOf pre), c!"└"⟩)
      .nil (by simp) (by simp [Span.splat]) (by simp [Span.splat]) (by simpa using ih _)
  | @comment s r ps hs hr hl ih =>
    intro pre
    have := tiles_prepend (x := '/' :: '/' :: s) (pre := pre) (r := r) (toks := tokensOf (pre ++ '/' :: '/' :: s) ps)
      (fun g rest hgr hg => by
        have := Gap.comment (s := s) (g := g) (rest := rest) hs (by rw [hgr]; exact hr) hg
        simpa using this) (ih _)
    simpa [tokensOf] using this
  | @word c s r ps hc hs hr hl ih =>
    intro pre
    have := Tiles.tok (pre := pre) (g := []) (rest := r) (toks := tokensOf (pre ++ c :: s) ps)
      (t := ⟨wordKind (c :: s), ⟨posOf pre, posOf (pre ++ (c :: s).dropLast)⟩, c :: s⟩) .nil (by simp) (by simp)
      (by simp) (by simpa using ih _)
    simpa [tokensOf] using this

theorem lexRun_ok {toks toks' : List Token} {mode : Bool} {pre : Str} {ps : List Piece}
    (h : lexRun toks mode pre ps = .ok toks') : toks' = toks ++ tokensOf pre ps := by
  induction ps generalizing toks mode pre with
  | nil => simp [lexRun] at h; simp [tokensOf, h]
  | cons p ps ih =>
    cases p with
    | word w =>
      rw [lexRun] at h
      split at h
      · cases h
      · have := ih h; simpa [tokensOf] using this
    | _ => have := ih h; simpa [tokensOf] using this

theorem tokenize_ok_tokensOf {text : Str} {ps : List Piece} {toks : List Token} (hl : Lexes text ps)
    (h : tokenize text = .ok toks) : toks = tokensOf [] ps := by
  rw [tokenize_eq_lexRun hl] at h
  simpa using lexRun_ok h

/-! ## Removing a comment -/

theorem piece_chars_ne {p : Piece} {r : Str} {ps : List Piece} (h : Lexes r (p :: ps)) : p.chars ≠ [] := by
  cases h <;> simp [Piece.chars]

/-- The head of a decomposition that contains a comment survives removing the comment. -/
theorem lexes_head {A B : List Piece} {s r : Str} (h : Lexes r (A ++ .comment s :: B))
    (hne : ∀ t, r ≠ '/' :: t) :
    ∃ d t, r = d :: t ∧ ∃ t', charsOf (A ++ B) = d :: t' := by
  cases A with
  | nil =>
    have := lexes_charsOf h
    simp [charsOf, Piece.chars] at this
    exact absurd this.symm (hne _)
  | cons p A =>
    have hp := piece_chars_ne h
    have := lexes_charsOf h
    cases hc : p.chars with
    | nil => exact absurd hc hp
    | cons d t =>
      simp [charsOf, hc] at this
      exact ⟨d, _, this.symm, _, by simp [charsOf, hc]; rfl⟩

theorem lexes_remove {A : List Piece} : ∀ {B : List Piece} {s text : Str},
    Lexes text (A ++ .comment s :: B) → Lexes (charsOf (A ++ B)) (A ++ B) := by
  induction A with
  | nil =>
    intro B s text h
    cases h with
    | comment _ _ h => have := lexes_charsOf h; simp [this, h]
  | cons p A ih =>
    intro B s text h
    have hsplit : charsOf (p :: A ++ B) = p.chars ++ charsOf (A ++ B) := by simp [charsOf]
    rw [hsplit]
    cases h with
    | skip hc h => exact .skip hc (ih h)
    | brk hc h => exact .brk hc (ih h)
    | tee h => exact .tee (ih h)
    | corner h => exact .corner (ih h)
    | @comment s' r _ hs hr h =>
      have hr' : AtLineEnd (charsOf (A ++ B)) := by
        rcases hr with rfl | ⟨r', rfl⟩
        · have := lexes_nonempty_rest h rfl; simp at this
        · obtain ⟨d, t, h1, t', h2⟩ := lexes_head h (by simp)
          rw [h2]; right; simp at h1; exact ⟨t', by rw [h1.1]⟩
      have := Lexes.comment hs hr' (ih h)
      simpa [Piece.chars] using this
    | @word c w r _ hc hw hr h =>
      have key : ∃ d t, r = d :: t ∧ isWs d = true ∧ ∃ t', charsOf (A ++ B) = d :: t' := by
        rcases hr with rfl | ⟨d, r', rfl, hd⟩
        · have := lexes_nonempty_rest h rfl; simp at this
        · obtain ⟨d', t, h1, t', h2⟩ := lexes_head h
            (by intro t ht; simp at ht; rw [ht.1] at hd; exact absurd hd (by decide))
          simp at h1
          exact ⟨d, r', rfl, hd, t', by rw [h2, h1.1]⟩
      obtain ⟨d, t, rfl, hd, t', ht'⟩ := key
      have := Lexes.word (c := c) (s := w) (r := charsOf (A ++ B)) (ps := A ++ B) ?_ hw
        (Or.inr ⟨d, t', ht', hd⟩) (ih h)
      · simpa [Piece.chars] using this
      · refine ⟨hc.1, hc.2.1, hc.2.2.1, hc.2.2.2.1, ?_⟩
        rintro ⟨h1, x, h2⟩
        apply hc.2.2.2.2
        refine ⟨h1, ?_⟩
        rw [ht'] at h2
        cases w with
        | nil => simp at h2; exact ⟨t, by simp [h2.1]⟩
        | cons e w => simp at h2; exact ⟨w ++ d :: t, by simp [h2.1]⟩

theorem lineCol_advance {p q : Position} (h : lineCol p = lineCol q) (c : Char) :
    lineCol (p.advance c) = lineCol (q.advance c) := by
  simp [lineCol] at h
  unfold Position.advance lineCol
  by_cases hc : c = '\n' <;> simp [hc, h.1, h.2]

theorem lineCol_append {p q : Str} (h : lineCol (posOf p) = lineCol (posOf q)) (s : Str) :
    lineCol (posOf (p ++ s)) = lineCol (posOf (q ++ s)) := by
  induction s generalizing p q with
  | nil => simpa using h
  | cons c s ih =>
    have := ih (p := p ++ [c]) (q := q ++ [c]) (by rw [← posOf_snoc, ← posOf_snoc]; exact lineCol_advance h c)
    simpa using this

theorem lexRun_congr (ps : List Piece) : ∀ {toks toks' : List Token} {mode : Bool} {pre pre' : Str},
    toks.map tokView = toks'.map tokView → lineCol (posOf pre) = lineCol (posOf pre') →
    lexView (lexRun toks mode pre ps) = lexView (lexRun toks' mode pre' ps) := by
  induction ps with
  | nil => intro toks toks' mode pre pre' ht hp; simp [lexRun, lexView, ht]
  | cons p ps ih =>
    intro toks toks' mode pre pre' ht hp
    cases p with
    | skip c => exact ih ht (lineCol_append hp _)
    | brk c => exact ih ht (lineCol_append hp _)
    | comment s => exact ih ht (lineCol_append hp _)
    | tee => exact ih (by simp [ht, tokView, Span.splat, hp]) (lineCol_append hp _)
    | corner => exact ih (by simp [ht, tokView, Span.splat, hp]) (lineCol_append hp _)
    | word w =>
      rw [lexRun, lexRun]
      split
      · simp [lexView, Span.splat, lineCol_append hp]
      · have hlast : (toks.getLast?.map Token.isBranch).getD false = (toks'.getLast?.map Token.isBranch).getD false := by
          have h1 : ∀ l : List Token, (l.getLast?.map Token.isBranch) =
              ((l.map tokView).getLast?.map (fun v => match v.1 with | .tee | .corner => true | _ => false)) := by
            intro l
            rw [List.getLast?_map, Option.map_map]
            congr 1
            funext t
            cases hk : t.kind <;> simp [Token.isBranch, tokView, hk]
          rw [h1, h1, ht]
        simp only [hlast]
        exact ih (by simp [ht, tokView, hp, lineCol_append hp]) (lineCol_append hp _)

theorem lexRun_remove (A : List Piece) : ∀ {B : List Piece} {s text : Str} (_ : Lexes text (A ++ .comment s :: B))
    {toks : List Token} {mode : Bool} {pre : Str},
    lexView (lexRun toks mode pre (A ++ .comment s :: B)) = lexView (lexRun toks mode pre (A ++ B)) := by
  induction A with
  | nil =>
    intro B s text h toks mode pre
    cases h with
    | @comment _ r _ hs hr hl =>
      rcases hr with rfl | ⟨r', rfl⟩
      · rw [lexes_nonempty_rest hl rfl]; rfl
      · cases hl with
        | skip hc => simp [IsSkip] at hc
        | word hc => exact absurd (Or.inl rfl) hc.2.1
        | @brk _ _ ps hc hl =>
          simp only [List.nil_append, lexRun]
          apply lexRun_congr _ rfl
          rw [← posOf_snoc, ← posOf_snoc]
          have hline : ∀ s : Str, '\n' ∉ s → ∀ p : Position, (advN p s).line = p.line := by
            intro s hs
            induction s with
            | nil => intro p; rfl
            | cons c s ih =>
              intro p
              simp at hs
              rw [advN_cons, ih hs.2, Position.advance, if_neg (fun h => hs.1 h.symm)]
          have := hline ('/' :: '/' :: s) (by simp [hs]) (posOf pre)
          rw [advN_posOf] at this
          simp [Position.advance, lineCol, this]
  | cons p A ih =>
    intro B s text h toks mode pre
    have : ∃ r, Lexes r (A ++ .comment s :: B) := by cases h <;> exact ⟨_, by assumption⟩
    obtain ⟨r, hr⟩ := this
    cases p with
    | word w =>
      simp only [List.cons_append]
      rw [lexRun, lexRun]
      split
      · rfl
      · exact ih hr
    | _ => exact ih hr

end
end Bulloak
